import Verif.Spec.Meaning
import Verif.Props.Print
import Verif.Props.Delay6
/-
C66: the output of a partial evaluation means the same.
-/
namespace Spiff

/-! ### the tree with additional parentheses -/

def addsGroupEx : Op → Bool
  | .not => true
  | .qual _ => true
  | _ => false

mutual
/-- parentheses around the operands of `!` and of paths -/
def regroupEx : Ex → Ex
  | .node op args => .node op (if addsGroupEx op then (regroupExL args).map (fun e => .node .group [e]) else regroupExL args)
termination_by structural x => x
def regroupExL : List Ex → List Ex
  | [] => []
  | e :: r => regroupEx e :: regroupExL r
termination_by structural x => x
end

theorem regroupExL_map (l : List Ex) : regroupExL l = l.map regroupEx := by
  induction l with
  | nil => rfl
  | cons a r ih => simp [regroupExL, ih]

theorem rotate_map (l : List Ex) (f : Ex → Ex) : rotate (l.map f) = (rotate l).map (List.map f) := by
  unfold rotate
  rw [List.getLast?_map, Option.map_map, Option.map_map]
  cases l.getLast? <;> simp [List.map_dropLast]

/-- the arguments of an expression with additional parentheses -/
def groupArgs (op : SynOp) (l : List Ex) : List Ex :=
  if op.addsGroup then l.map (fun e => .node .group [regroupEx e]) else l.map regroupEx

theorem regroup_node (op : Op) (l : List Ex) (h : addsGroupEx op = false) : regroupEx (.node op l) = .node op (l.map regroupEx) := by
  rw [regroupEx, h, regroupExL_map]; rfl

theorem callOp_cases (fn : String) : callOp fn = .call fn ∨ callOp fn ∈ [.defined, .valid, .require, .optional, .stub, .catchCall] := by
  unfold callOp
  split
  · simp
  · split
    · simp
    · split
      · simp
      · split
        · simp
        · split
          · simp
          · split <;> simp

theorem callOp_group (fn : String) : addsGroupEx (callOp fn) = false := by
  rcases callOp_cases fn with h | h
  · rw [h]; rfl
  · simp only [List.mem_cons, List.not_mem_nil, or_false] at h
    rcases h with h | h | h | h | h | h <;> rw [h] <;> rfl

theorem exOp_group (op : SynOp) (l : List Ex) : exOp op (groupArgs op l) = (exOp op l).map regroupEx := by
  cases op with
  | call curry =>
    simp only [groupArgs, SynOp.addsGroup, Bool.false_eq_true, if_false]
    cases l with
    | nil => rfl
    | cons f rest =>
      obtain ⟨o, as⟩ := f
      have key : ∀ (g : List Ex → Option Ex) (a : Ex), (match regroupEx a :: rest.map regroupEx with
          | .node (.ref [fn]) [] :: rest => if curry then none else callOf fn rest
          | _ => none) = Option.map regroupEx (match a :: rest with
          | .node (.ref [fn]) [] :: rest => if curry then none else callOf fn rest
          | _ => none) := by
        intro _ a
        obtain ⟨o, as⟩ := a
        cases o with
        | ref p =>
          rw [regroupEx]
          simp only [addsGroupEx, Bool.false_eq_true, if_false, regroupExL_map]
          cases as with
          | cons x xs => cases p with
            | nil => rfl
            | cons q ps => cases ps <;> rfl
          | nil => cases p with
            | nil => rfl
            | cons q ps => cases ps with
              | cons _ _ => rfl
              | nil =>
                simp only [List.map_nil]
                split
                · rfl
                · unfold callOf
                  split
                  · rfl
                  · rw [Option.map_some, regroup_node _ _ (callOp_group _)]
        | _ => rw [regroupEx]; rfl
      exact key (fun _ => none) _
  | scope =>
    simp only [groupArgs, SynOp.addsGroup, Bool.false_eq_true, if_false, exOp, rotate_map, Option.map_map]
    congr 1
    funext x
    simp only [Function.comp_apply]
    rw [regroup_node _ _ rfl]
  | ref tag p =>
    simp only [groupArgs, SynOp.addsGroup, Bool.false_eq_true, if_false, exOp]
    split
    · rw [Option.map_some, regroup_node _ _ rfl]
    · rfl
  | cmp t =>
    simp only [groupArgs, SynOp.addsGroup, Bool.false_eq_true, if_false, exOp]
    cases cmpOf t with
    | none => rfl
    | some c => simp only [Option.map_some]; rw [regroup_node _ _ rfl]
  | range a b =>
    simp only [groupArgs, SynOp.addsGroup, Bool.false_eq_true, if_false, exOp]
    split
    · rw [Option.map_some, regroup_node _ _ rfl]
    · rfl
  | not => simp only [groupArgs, SynOp.addsGroup, if_true, exOp, Option.map_some, regroupEx, addsGroupEx, regroupExL_map, List.map_map]; rfl
  | qual p => simp only [groupArgs, SynOp.addsGroup, if_true, exOp, Option.map_some, regroupEx, addsGroupEx, regroupExL_map, List.map_map]; rfl
  | _ =>
    simp only [groupArgs, SynOp.addsGroup, Bool.false_eq_true, if_false, if_true, exOp, Option.map_some, Option.map_none]
    try rw [regroup_node _ _ rfl]

theorem toExAll_group (l : List Syn) : toExAll (l.map (fun e => .node .group [e])) = (toExAll l).map (List.map (fun e => .node .group [e])) := by
  induction l with
  | nil => rfl
  | cons a r ih =>
    rw [List.map_cons, toExAll, toExAll, ih]
    simp only [toEx, toExAll]
    cases toEx a with
    | none => rfl
    | some x => cases toExAll r <;> rfl

/-- the additional parentheses of C63 in the expression evaluated -/
theorem toEx_regroup (s : Syn) : toEx (regroup s) = (toEx s).map regroupEx := by
  refine Syn.rec (motive_1 := fun s => toEx (regroup s) = (toEx s).map regroupEx)
    (motive_2 := fun l => toExAll (regroupAll l) = (toExAll l).map (List.map regroupEx)) ?_ ?_ ?_ s
  · intro op args ih
    rw [regroup, toEx, toEx]
    cases h : toExAll args with
    | none =>
      rw [h] at ih
      split
      · rw [toExAll_group, ih]; rfl
      · rw [ih]; rfl
    | some l =>
      rw [h] at ih
      have := exOp_group op l
      unfold groupArgs at this
      split
      · rename_i hg
        rw [hg, if_pos rfl] at this
        rw [toExAll_group, ih]
        simp only [Option.map_some, Option.bind_some, List.map_map]
        exact this
      · rename_i hg
        rw [if_neg hg] at this
        rw [ih]
        exact this
  · rfl
  · intro a r iha ihr
    rw [regroupAll, toExAll, toExAll, iha, ihr]
    cases toEx a with
    | none => rfl
    | some x => cases toExAll r <;> rfl

/-! ### evaluation with additional parentheses -/

/-- the same outcome, remaining expressions of the same kind -/
inductive Sim : Ev → Ev → Prop
  | value {v i} : v.isExpr = false → Sim (.val v i) (.val v i)
  | later {e e' i} : isExpand e = isExpand e' → Sim (.val (.expr e) i) (.val (.expr e') i)
  | fail {i} : Sim (.fail i) (.fail i)
  | crash : Sim .crash .crash

theorem Sim.refl (o : Ev) : Sim o o := by
  cases o with
  | crash => exact .crash
  | fail i => exact .fail
  | val v i =>
    cases hv : v.isExpr with
    | true => obtain ⟨e, rfl⟩ := Val.isExpr_true hv; exact .later rfl
    | false => exact .value hv

theorem Sim.alike {o o' : Ev} (h : Sim o o') : Ev.Alike o o' := by
  cases h with
  | value _ => exact .value
  | later _ => exact .later
  | fail => exact .fail
  | crash => exact .crash

theorem keepWrapper_isExpand (e orig : Ex) : isExpand (keepWrapper e orig) = (isExpand orig || isExpand e) := by
  unfold keepWrapper
  cases h : isExpand orig <;> cases h' : isExpand e <;> simp [h'] <;> rfl

/-- the same for operands -/
inductive SimR : Res → Res → Prop
  | done {v i} : v.isExpr = false → SimR (.done v i) (.done v i)
  | pend {e e' i} : isExpand e = isExpand e' → SimR (.pend e i) (.pend e' i)
  | fail {i} : SimR (.fail i) (.fail i)
  | crash : SimR .crash .crash

theorem resolve_sim {a a' : Ex} {o o' : Ev} (h : Sim o o') (ha : isExpand a = isExpand a') (i : Option Info) :
    SimR (resolve a i o) (resolve a' i o') := by
  cases h with
  | value hv => rw [resolve_val _ _ _ _ hv, resolve_val _ _ _ _ hv]; exact .done hv
  | later he => exact .pend (by rw [keepWrapper_isExpand, keepWrapper_isExpand, ha, he])
  | fail => exact .fail
  | crash => exact .crash

theorem binEv_sim (X : EvLib) (op : BinOp) {a a' c c' : Ex} {oa oa' oc oc' : Ev} (ha : isExpand a = isExpand a')
    (hc : isExpand c = isExpand c') (h1 : Sim oa oa') (h2 : Sim oc oc') : Sim (binEv X op a c oa oc) (binEv X op a' c' oa' oc') := by
  unfold binEv
  have r1 := resolve_sim h1 ha none
  generalize resolve a none oa = x at r1 ⊢
  generalize resolve a' none oa' = x' at r1 ⊢
  cases r1 with
  | crash => exact .crash
  | fail => exact .fail
  | @done v i hv =>
    simp only
    split
    · exact .fail
    · have r2 := resolve_sim h2 hc (some i)
      generalize resolve c (some i) oc = y at r2 ⊢
      generalize resolve c' (some i) oc' = y' at r2 ⊢
      cases r2 with
      | crash => exact .crash
      | fail => exact .fail
      | pend _ => exact .later rfl
      | done _ => simp only; exact Sim.refl _
  | @pend e e' i he =>
    have r2 := resolve_sim h2 hc (some i)
    simp only
    generalize resolve c (some i) oc = y at r2 ⊢
    generalize resolve c' (some i) oc' = y' at r2 ⊢
    cases r2 with
    | crash => exact .crash
    | fail => exact .fail
    | pend _ => exact .later rfl
    | done _ =>
      simp only
      split
      · exact .fail
      · exact .later rfl

theorem notEv_sim {a a' : Ex} {o o' : Ev} (h : Sim o o') : Sim (notEv a o) (notEv a' o') := by
  cases h with
  | crash => exact .crash
  | fail => exact .fail
  | later _ => exact .later rfl
  | value hv => unfold notEv; rw [resolve_val _ _ _ _ hv, resolve_val _ _ _ _ hv]; exact Sim.refl _

theorem logEv_sim {e e' : Ex} (f : Val Ex → Option (Val Ex) → Out (Val Ex)) {a a' c c' : Ev} (he : isExpand e = isExpand e')
    (h1 : Sim a a') (h2 : Sim c c') : Sim (logEv e f a c) (logEv e' f a' c') := by
  unfold logEv
  cases h1 with
  | crash => exact .crash
  | fail => exact .fail
  | later _ => simp only [Val.isExpr, if_true]; exact .later he
  | value hv =>
    simp only [hv, Bool.false_eq_true, if_false]
    cases h2 with
    | crash => exact .crash
    | fail => exact Sim.refl _
    | later _ => simp only [Val.isExpr, if_true]; exact .later he
    | value hv' => simp only [hv', Bool.false_eq_true, if_false]; exact Sim.refl _

theorem orAlt_sim (i : Info) {o o' : Ev} (h : Sim o o') : Sim (orAlt i o) (orAlt i o') := by
  cases h with
  | crash => exact .crash
  | fail => exact .fail
  | later h => exact .later h
  | value h => exact .value h

theorem orEv_sim {e e' : Ex} {a a' c c' : Ev} (he : isExpand e = isExpand e') (h1 : Sim a a') (h2 : Sim c c') :
    Sim (orEv e a c) (orEv e' a' c') := by
  unfold orEv
  cases h1 with
  | crash => exact .crash
  | fail => exact orAlt_sim _ h2
  | later _ =>
    simp only [Val.isExpr, if_true]
    split
    · exact .later he
    · exact orAlt_sim _ h2
  | value hv =>
    simp only [hv, Bool.false_eq_true, if_false]
    split
    · exact .value hv
    · exact orAlt_sim _ h2

theorem condEv_sim {c t f c' t' f' : Ex} {oc ot of oc' ot' of' : Ev} (hc : isExpand c = isExpand c') (h1 : Sim oc oc')
    (h2 : Sim ot ot') (h3 : Sim of of') : Sim (condEv c t f oc ot of) (condEv c' t' f' oc' ot' of') := by
  unfold condEv
  have r1 := resolve_sim h1 hc none
  generalize resolve c none oc = x at r1 ⊢
  generalize resolve c' none oc' = x' at r1 ⊢
  cases r1 with
  | crash => exact .crash
  | fail => exact .fail
  | pend _ => exact .later rfl
  | @done v i hv =>
    simp only
    have : Sim (if toBool v then ot else of) (if toBool v then ot' else of') := by split; exact h2; exact h3
    generalize (if toBool v then ot else of) = o at this ⊢
    generalize (if toBool v then ot' else of') = o' at this ⊢
    cases this with
    | crash => exact .crash
    | fail => exact .fail
    | later h => exact .later h
    | value h => exact .value h

/-- corresponding arguments -/
def SimA (A A' : List (Ex × Ev)) : Prop := List.Forall₂ (fun x y => x.1.op = y.1.op ∧ Sim x.2 y.2) A A'

theorem op_isExpand {a a' : Ex} (h : a.op = a'.op) : isExpand a = isExpand a' := by
  obtain ⟨o, l⟩ := a
  obtain ⟨o', l'⟩ := a'
  cases h
  cases o <;> rfl

/-- corresponding results for argument lists -/
inductive SimL : ResL → ResL → Prop
  | ok {vs es es' r i} : List.Forall₂ (fun e e' => isExpand e = isExpand e') es es' → SimL (.ok vs es r i) (.ok vs es' r i)
  | fail {i} : SimL (.fail i) (.fail i)
  | crash : SimL .crash .crash

theorem SimL.cons {r r' : ResL} (v : Val Ex) {e e' : Ex} (b : Bool) (he : isExpand e = isExpand e') (h : SimL r r') :
    SimL (r.cons v e b) (r'.cons v e' b) := by
  cases h with
  | ok h => exact .ok (.cons he h)
  | fail => exact .fail
  | crash => exact .crash

theorem resolveArgs_sim {A A' : List (Ex × Ev)} (h : SimA A A') : ∀ i, SimL (resolveArgs i A) (resolveArgs i A') := by
  induction h with
  | nil => intro i; exact .ok .nil
  | @cons x y A A' hxy _ ih =>
    intro i
    obtain ⟨a, o⟩ := x
    obtain ⟨a', o'⟩ := y
    have ha := op_isExpand hxy.1
    have r1 := resolve_sim hxy.2 ha i
    simp only [resolveArgs]
    simp only at r1 ha
    generalize resolve a i o = u at r1 ⊢
    generalize resolve a' i o' = u' at r1 ⊢
    cases r1 with
    | crash => exact .crash
    | fail => exact .fail
    | pend he => exact (ih _).cons _ _ he
    | done _ => exact (ih _).cons _ _ ha

theorem expandArgs_sim {es es' : List Ex} (h : List.Forall₂ (fun e e' => isExpand e = isExpand e') es es') : ∀ vs : List (Val Ex),
    expandArgs (vs.zip es) = expandArgs (vs.zip es') := by
  induction h with
  | nil => intro vs; simp
  | cons he _ ih =>
    intro vs
    cases vs with
    | nil => rfl
    | cons v vs => simp only [List.zip_cons_cons, expandArgs, he, ih vs]

theorem resolveList_sim {A A' : List (Ex × Ev)} (h : SimA A A') : SimL (resolveList A) (resolveList A') := by
  unfold resolveList
  have r1 := resolveArgs_sim h none
  generalize resolveArgs none A = x at r1 ⊢
  generalize resolveArgs none A' = x' at r1 ⊢
  cases r1 with
  | crash => exact .crash
  | fail => exact .fail
  | @ok vs es es' r i he =>
    simp only [expandArgs_sim he vs]
    split
    · exact .ok he
    · exact .fail

theorem listEv_sim (b : Bind) {A A' : List (Ex × Ev)} (h : SimA A A') : Sim (listEv b A) (listEv b A') := by
  unfold listEv
  have r1 := resolveList_sim h
  generalize resolveList A = x at r1 ⊢
  generalize resolveList A' = x' at r1 ⊢
  cases r1 with
  | crash => exact .crash
  | fail => exact .fail
  | ok _ =>
    simp only
    split
    · exact Sim.refl _
    · exact .later rfl

theorem callEv_sim (X : EvLib) (b : Bind) (fn : String) {A A' : List (Ex × Ev)} (h : SimA A A') : Sim (callEv X b fn A) (callEv X b fn A') := by
  unfold callEv
  have r1 := resolveList_sim h
  generalize resolveList A = x at r1 ⊢
  generalize resolveList A' = x' at r1 ⊢
  cases r1 with
  | crash => exact .crash
  | fail => exact .fail
  | ok _ =>
    simp only
    split
    · split
      · exact Sim.refl _
      · split
        · exact Sim.refl _
        · split
          · split
            · exact .later rfl
            · exact Sim.refl _
          · exact .fail
          · exact .fail
          · exact .crash
    · exact .later rfl

theorem assignEv_sim (b : Bind) : ∀ (n : Nat) {A A' : List (Ex × Ev)}, A.length ≤ n → SimA A A' → ∀ acc, assignEv b A acc = assignEv b A' acc := by
  intro n
  induction n with
  | zero =>
    intro A A' hn h acc
    cases h with
    | nil => rfl
    | cons _ _ => simp at hn
  | succ n ih =>
    intro A A' hn h acc
    cases h with
    | nil => rfl
    | @cons x y A A' h1 h =>
      cases h with
      | nil => obtain ⟨_, _⟩ := x; obtain ⟨_, _⟩ := y; rfl
      | @cons x2 y2 A A' h2 h =>
        obtain ⟨k, ok⟩ := x
        obtain ⟨k', ok'⟩ := y
        obtain ⟨v, ov⟩ := x2
        obtain ⟨v', ov'⟩ := y2
        simp only [assignEv]
        have r1 := resolve_sim h1.2 (op_isExpand h1.1) (some {})
        simp only at r1
        generalize resolve k (some {}) ok = u at r1 ⊢
        generalize resolve k' (some {}) ok' = u' at r1 ⊢
        cases r1 with
        | crash => rfl
        | fail => rfl
        | pend _ => rfl
        | @done w i _ =>
          cases w with
          | str s =>
            simp only
            have r2 := resolve_sim h2.2 (op_isExpand h2.1) (some i)
            simp only at r2
            generalize resolve v (some i) ov = u at r2 ⊢
            generalize resolve v' (some i) ov' = u' at r2 ⊢
            cases r2 with
            | crash => rfl
            | fail => rfl
            | pend _ => rfl
            | done _ => exact ih (by simp only [List.length_cons] at hn; omega) h _
          | _ => rfl

theorem mapEv_sim {e e' : Ex} (he : isExpand e = isExpand e') (b : Bind) {A A' : List (Ex × Ev)} (h : SimA A A') : Sim (mapEv e b A) (mapEv e' b A') := by
  unfold mapEv
  rw [assignEv_sim b A.length (Nat.le_refl _) h]
  split
  · exact .crash
  · exact .fail
  · exact .later he
  · exact Sim.refl _

theorem scopeEv_sim (X : EvLib) {e e' : Ex} (he : isExpand e = isExpand e') (b : Bind) {A A' : List (Ex × Ev)} (h : SimA A A')
    {body body' : Bind → Ev} (hb : ∀ b, Sim (body b) (body' b)) : Sim (scopeEv X e b A body) (scopeEv X e' b A' body') := by
  unfold scopeEv
  rw [assignEv_sim b A.length (Nat.le_refl _) h]
  split
  · exact .crash
  · exact .fail
  · exact .later he
  · rename_i m _
    have := hb (b.withLocal X m)
    generalize body (b.withLocal X m) = o at this ⊢
    generalize body' (b.withLocal X m) = o' at this ⊢
    cases this with
    | crash => exact .crash
    | fail => exact .fail
    | later _ => exact .later he
    | value hv => simp only [hv, Bool.false_eq_true, if_false]; exact .value hv

theorem resolveInt_sim {a a' : Ex} {o o' : Ev} (ha : isExpand a = isExpand a') (h : Sim o o') : resolveInt a o = resolveInt a' o' := by
  unfold resolveInt
  have r1 := resolve_sim h ha (some {})
  generalize resolve a (some {}) o = x at r1 ⊢
  generalize resolve a' (some {}) o' = x' at r1 ⊢
  cases r1 <;> rfl

theorem rangeEv_sim {e e' s s' t t' : Ex} (he : isExpand e = isExpand e') (hs : isExpand s = isExpand s') (ht : isExpand t = isExpand t')
    (b : Bind) {a a' c c' : Ev} (h1 : Sim a a') (h2 : Sim c c') : Sim (rangeEv e s t b a c) (rangeEv e' s' t' b a' c') := by
  unfold rangeEv
  rw [resolveInt_sim hs h1, resolveInt_sim ht h2]
  split
  · exact Sim.refl _
  · exact .later he
  · exact Sim.refl _

theorem sliceBound_sim {a a' : Ex} (ha : isExpand a = isExpand a') {o o' : Option Ev} (h : Option.Rel Sim o o') : sliceBound a o = sliceBound a' o' := by
  cases h with
  | none => rfl
  | some h => exact resolveInt_sim ha h

theorem sliceEv_sim (X : EvLib) {e e' s s' t t' : Ex} (he : isExpand e = isExpand e') (hs : isExpand s = isExpand s') (ht : isExpand t = isExpand t')
    {r r' : Ev} {a a' c c' : Option Ev} (hr : Sim r r') (h1 : Option.Rel Sim a a') (h2 : Option.Rel Sim c c') (loc : Bool) :
    Sim (sliceEv X e s t r a c loc) (sliceEv X e' s' t' r' a' c' loc) := by
  have n1 : a.isNone = a'.isNone := by cases h1 <;> rfl
  have n2 : c.isNone = c'.isNone := by cases h2 <;> rfl
  have m1 : ∀ x : Int, a.map (fun _ => x) = a'.map (fun _ => x) := by cases h1 <;> intro x <;> rfl
  have m2 : ∀ x : Int, c.map (fun _ => x) = c'.map (fun _ => x) := by cases h2 <;> intro x <;> rfl
  unfold sliceEv
  cases hr with
  | crash => exact .crash
  | fail => exact .fail
  | later _ => simp only [localReady, Bool.not_false, if_true]; exact .later he
  | value hv =>
    simp only
    split
    · exact .later he
    · split
      · exact .later he
      · split
        · rw [n1, n2, sliceBound_sim hs h1, sliceBound_sim ht h2]
          split
          · exact .fail
          · split
            · exact .crash
            · exact .fail
            · exact .later he
            · rw [m1, m2]; exact Sim.refl _
        · exact Sim.refl _

theorem qualEv_sim (X : EvLib) {e e' : Ex} (he : isExpand e = isExpand e') (p : List String) {r r' : Ev} (hr : Sim r r') (loc : Bool) :
    Sim (qualEv X e p r loc) (qualEv X e' p r' loc) := by
  unfold qualEv
  cases hr with
  | crash => exact .crash
  | fail => exact .fail
  | later _ => simp only [localReady, Bool.not_false, if_true]; exact .later rfl
  | @value v i hv =>
    simp only
    split
    · cases v with
      | expr _ => cases hv
      | _ => exact .later he
    · split
      · exact .later he
      · exact Sim.refl _

theorem refFind_sim (ctl : Bool) {e e' : Ex} (he : isExpand e = isExpand e') (len : Nat) (look : Nat → Look (Node Ex)) (loc : Bool) :
    Sim (refFind ctl e len look loc) (refFind ctl e' len look loc) := by
  have key : ∀ (n i : Nat) (last : Node Ex), (∃ x, findSteps ctl e look i n last = .inl x ∧ findSteps ctl e' look i n last = .inl x) ∨
      ∃ o o', findSteps ctl e look i n last = .inr o ∧ findSteps ctl e' look i n last = .inr o' ∧ Sim o o' := by
    intro n
    induction n with
    | zero => intro i last; exact .inl ⟨last, rfl, rfl⟩
    | succ n ih =>
      intro i last
      simp only [findSteps]
      split
      · exact .inr ⟨_, _, rfl, rfl, .crash⟩
      · exact .inr ⟨_, _, rfl, rfl, Sim.refl _⟩
      · split
        · exact ih _ _
        · exact .inr ⟨_, _, rfl, rfl, .later he⟩
  unfold refFind
  split
  · exact .crash
  · rcases key len 0 (Node.new .nil "") with ⟨x, h1, h2⟩ | ⟨o, o', h1, h2, h3⟩
    · rw [h1, h2]
      simp only [refResult]
      split
      · exact .later he
      · exact Sim.refl _
    · rw [h1, h2]; exact h3

theorem dynEv_sim (X : EvLib) {e e' : Ex} (he : isExpand e = isExpand e') {r r' : Ev} {d d' : Bool → Ev} (hr : Sim r r') (hd : ∀ l, Sim (d l) (d' l)) (loc : Bool) :
    Sim (dynEv X e r d loc) (dynEv X e' r' d' loc) := by
  unfold dynEv
  cases hr with
  | crash => exact .crash
  | fail => exact .fail
  | later _ => simp only [localReady, Bool.not_false, if_true]; exact .later he
  | @value v i hv =>
    simp only
    split
    · exact .later he
    · have := hd (loc || i.raw)
      generalize d (loc || i.raw) = o at this ⊢
      generalize d' (loc || i.raw) = o' at this ⊢
      cases this with
      | crash => exact .crash
      | fail => exact .fail
      | later _ => simp only [completeV, Bool.not_false, if_true]; exact .later he
      | value _ =>
        simp only
        split
        · exact .later he
        · split
          · exact Sim.refl _
          · split
            · exact .crash
            · exact .fail
            · split
              · exact Sim.refl _
              · exact .later he

theorem definedEv_sim {e e' : Ex} (he : isExpand e = isExpand e') {A A' : List (Ex × Ev)} (h : SimA A A') : ∀ r, Sim (definedEv e r A) (definedEv e' r A') := by
  induction h with
  | nil => intro r; simp only [definedEv]; split; exact Sim.refl _; exact .later he
  | @cons x y A A' hxy _ ih =>
    intro r
    obtain ⟨a, o⟩ := x
    obtain ⟨a', o'⟩ := y
    have r1 := resolve_sim hxy.2 (op_isExpand hxy.1) none
    simp only [definedEv]
    simp only at r1
    generalize resolve a none o = u at r1 ⊢
    generalize resolve a' none o' = u' at r1 ⊢
    cases r1 with
    | crash => exact .crash
    | fail => simp only; split; exact Sim.refl _; exact ih _
    | pend _ => exact ih _
    | done _ => simp only; split; exact Sim.refl _; exact ih _

theorem validEv_sim {e e' : Ex} (he : isExpand e = isExpand e') {A A' : List (Ex × Ev)} (h : SimA A A') : ∀ r v, Sim (validEv e r v A) (validEv e' r v A') := by
  induction h with
  | nil => intro r v; simp only [validEv]; split; exact Sim.refl _; exact .later he
  | @cons x y A A' hxy _ ih =>
    intro r v
    obtain ⟨a, o⟩ := x
    obtain ⟨a', o'⟩ := y
    have r1 := resolve_sim hxy.2 (op_isExpand hxy.1) none
    simp only [validEv]
    simp only at r1
    generalize resolve a none o = u at r1 ⊢
    generalize resolve a' none o' = u' at r1 ⊢
    cases r1 with
    | crash => exact .crash
    | fail => simp only; split; exact Sim.refl _; exact ih _ _
    | pend _ => exact ih _ _
    | done _ => exact ih _ _

theorem requireEv_sim {e e' a a' : Ex} (he : isExpand e = isExpand e') (ha : isExpand a = isExpand a') {o o' : Ev} (h : Sim o o') :
    Sim (requireEv e a o) (requireEv e' a' o') := by
  unfold requireEv
  have r1 := resolve_sim h ha none
  generalize resolve a none o = u at r1 ⊢
  generalize resolve a' none o' = u' at r1 ⊢
  cases r1 with
  | crash => exact .crash
  | fail => exact Sim.refl _
  | pend _ => exact .later he
  | done _ => exact Sim.refl _

theorem optionalEv_sim {a a' c c' : Ex} (ha : isExpand a = isExpand a') {o o' t t' : Ev} (h : Sim o o') (ht : Sim t t') :
    Sim (optionalEv a c o t) (optionalEv a' c' o' t') := by
  unfold optionalEv
  have r1 := resolve_sim h ha (some {})
  generalize resolve a (some {}) o = u at r1 ⊢
  generalize resolve a' (some {}) o' = u' at r1 ⊢
  cases r1 with
  | crash => exact .crash
  | fail => exact Sim.refl _
  | pend _ => exact .later rfl
  | done _ =>
    simp only
    split
    · exact Sim.refl _
    · cases ht with
      | crash => exact .crash
      | fail => exact .fail
      | later h => exact .later h
      | value h => exact .value h

theorem stubEv_sim (X : EvLib) {e e' : Ex} (he : isExpand e = isExpand e') (b : Bind) {A A' : List (Ex × Ev)} (h : SimA A A') :
    Sim (stubEv X e b A) (stubEv X e' b A') := by
  unfold stubEv
  cases h with
  | nil => exact Sim.refl _
  | @cons x y A A' hxy h =>
    cases h with
    | cons _ _ => exact Sim.refl _
    | nil =>
      obtain ⟨a, o⟩ := x
      obtain ⟨a', o'⟩ := y
      have r1 := resolve_sim hxy.2 (op_isExpand hxy.1) none
      simp only at r1
      have h0 : a.op = a'.op := hxy.1
      simp only [h0]
      split
      · exact Sim.refl _
      · generalize resolve a none o = u at r1 ⊢
        generalize resolve a' none o' = u' at r1 ⊢
        cases r1 with
        | crash => exact .crash
        | fail => exact .fail
        | pend _ => exact .later he
        | done _ => exact Sim.refl _

theorem catchEv_sim {e e' a a' : Ex} (he : isExpand e = isExpand e') (ha : isExpand a = isExpand a') (b : Bind) {o o' : Ev} (h : Sim o o') :
    Sim (catchEv e a b o) (catchEv e' a' b o') := by
  unfold catchEv
  have r1 := resolve_sim h ha none
  generalize resolve a none o = u at r1 ⊢
  generalize resolve a' none o' = u' at r1 ⊢
  cases r1 with
  | crash => exact .crash
  | fail => exact Sim.refl _
  | pend _ => exact .later he
  | done _ => exact Sim.refl _

/-- corresponding meanings -/
def SimD (d d' : Den) : Prop := ∀ b loc, Sim (d b loc) (d' b loc)

theorem argEv_sim {args args' : List Ex} {ds ds' : List Den} (ha : List.Forall₂ (fun a a' => a.op = a'.op) args args')
    (hd : List.Forall₂ SimD ds ds') (b : Bind) (loc : Bool) : SimA (argEv b loc args ds) (argEv b loc args' ds') := by
  induction ha generalizing ds ds' with
  | nil => simp only [argEv, List.zip_nil_left]; exact .nil
  | cons h _ ih =>
    cases hd with
    | nil => simp only [argEv, List.map_nil, List.zip_nil_right]; exact .nil
    | cons h' hd => exact .cons ⟨h, h' b loc⟩ (ih hd)

theorem sem_sim (X : EvLib) {op : Op} (hop : validOrOp op = false) {args args' : List Ex} {ds ds' : List Den}
    (ha : List.Forall₂ (fun a a' => a.op = a'.op) args args') (hd : List.Forall₂ SimD ds ds') :
    SimD (sem X op args ds) (sem X op args' ds') := by
  intro b loc
  have he : isExpand (.node op args) = isExpand (.node op args') := op_isExpand rfl
  cases op with
  | lit l => exact Sim.refl _
  | undef => exact Sim.refl _
  | ref p => exact refFind_sim _ he _ _ _
  | merge m => exact Sim.refl _
  | list => exact listEv_sim b (argEv_sim ha hd b false)
  | map => exact mapEv_sim he b (argEv_sim ha hd b loc)
  | call fn => exact callEv_sim X b fn (argEv_sim ha hd b false)
  | defined => exact definedEv_sim he (argEv_sim ha hd b true) _
  | valid => exact validEv_sim he (argEv_sim ha hd b true) _ _
  | stub => exact stubEv_sim X he b (argEv_sim ha hd b true)
  | validOr => cases hop
  | proj => cases hop
  | projValue => exact Sim.refl _
  | group =>
    cases hd with
    | nil => exact Sim.refl _
    | cons h1 hd => cases hd with
      | nil => exact h1 b loc
      | cons _ _ => exact Sim.refl _
  | expand =>
    cases hd with
    | nil => exact Sim.refl _
    | cons h1 hd => cases hd with
      | nil => exact h1 b loc
      | cons _ _ => exact Sim.refl _
  | prefer =>
    cases hd with
    | nil => exact Sim.refl _
    | @cons d d' _ _ h1 hd => cases hd with
      | nil =>
        have := h1 b loc
        simp only [sem]
        generalize d b loc = o at this ⊢
        generalize d' b loc = o' at this ⊢
        cases this with
        | crash => exact .crash
        | fail => exact .fail
        | later h => exact .later h
        | value h => exact .value h
      | cons _ _ => exact Sim.refl _
  | qual p =>
    cases hd with
    | nil => exact Sim.refl _
    | cons h1 hd => cases hd with
      | nil => exact qualEv_sim X he p (h1 b loc) loc
      | cons _ _ => exact Sim.refl _
  | scope =>
    cases ha with
    | nil => exact Sim.refl _
    | cons _ ha => cases hd with
      | nil => exact Sim.refl _
      | cons h1 hd => exact scopeEv_sim X he b (argEv_sim ha hd b loc) (fun b => h1 b loc)
  | not =>
    cases ha with
    | nil => exact Sim.refl _
    | cons _ ha => cases ha with
      | cons _ _ => exact Sim.refl _
      | nil => cases hd with
        | nil => exact Sim.refl _
        | cons h1 hd => cases hd with
          | cons _ _ => exact Sim.refl _
          | nil => exact notEv_sim (h1 b false)
  | require =>
    cases ha with
    | nil => exact Sim.refl _
    | cons a1 ha => cases ha with
      | cons _ _ => exact Sim.refl _
      | nil => cases hd with
        | nil => exact Sim.refl _
        | cons h1 hd => cases hd with
          | cons _ _ => exact Sim.refl _
          | nil => exact requireEv_sim he (op_isExpand a1) (h1 b true)
  | catchCall =>
    cases ha with
    | nil => exact Sim.refl _
    | cons a1 ha => cases ha with
      | cons _ _ => exact Sim.refl _
      | nil => exact .later rfl
  | «catch» =>
    cases ha with
    | nil => exact Sim.refl _
    | cons a1 ha => cases ha with
      | cons _ _ => exact Sim.refl _
      | nil => cases hd with
        | nil => exact Sim.refl _
        | cons h1 hd => cases hd with
          | cons _ _ => exact Sim.refl _
          | nil => exact catchEv_sim he (op_isExpand a1) b (h1 b false)
  | bin o =>
    cases ha with
    | nil => exact Sim.refl _
    | cons a1 ha => cases ha with
      | nil => exact Sim.refl _
      | cons a2 ha => cases ha with
        | cons _ _ => exact Sim.refl _
        | nil => cases hd with
          | nil => exact Sim.refl _
          | cons h1 hd => cases hd with
            | nil => exact Sim.refl _
            | cons h2 hd => cases hd with
              | cons _ _ => exact Sim.refl _
              | nil => exact binEv_sim X o (op_isExpand a1) (op_isExpand a2) (h1 b false) (h2 b false)
  | land =>
    cases ha with
    | nil => exact Sim.refl _
    | cons a1 ha => cases ha with
      | nil => exact Sim.refl _
      | cons a2 ha => cases ha with
        | cons _ _ => exact Sim.refl _
        | nil => cases hd with
          | nil => exact Sim.refl _
          | cons h1 hd => cases hd with
            | nil => exact Sim.refl _
            | cons h2 hd => cases hd with
              | cons _ _ => exact Sim.refl _
              | nil => exact logEv_sim _ he (h1 b false) (h2 b false)
  | lor =>
    cases ha with
    | nil => exact Sim.refl _
    | cons a1 ha => cases ha with
      | nil => exact Sim.refl _
      | cons a2 ha => cases ha with
        | cons _ _ => exact Sim.refl _
        | nil => cases hd with
          | nil => exact Sim.refl _
          | cons h1 hd => cases hd with
            | nil => exact Sim.refl _
            | cons h2 hd => cases hd with
              | cons _ _ => exact Sim.refl _
              | nil => exact logEv_sim _ he (h1 b false) (h2 b false)
  | or =>
    cases ha with
    | nil => exact Sim.refl _
    | cons a1 ha => cases ha with
      | nil => exact Sim.refl _
      | cons a2 ha => cases ha with
        | cons _ _ => exact Sim.refl _
        | nil => cases hd with
          | nil => exact Sim.refl _
          | cons h1 hd => cases hd with
            | nil => exact Sim.refl _
            | cons h2 hd => cases hd with
              | cons _ _ => exact Sim.refl _
              | nil => exact orEv_sim he (h1 b false) (h2 b false)
  | range =>
    cases ha with
    | nil => exact Sim.refl _
    | cons a1 ha => cases ha with
      | nil => exact Sim.refl _
      | cons a2 ha => cases ha with
        | cons _ _ => exact Sim.refl _
        | nil => cases hd with
          | nil => exact Sim.refl _
          | cons h1 hd => cases hd with
            | nil => exact Sim.refl _
            | cons h2 hd => cases hd with
              | cons _ _ => exact Sim.refl _
              | nil => exact rangeEv_sim he (op_isExpand a1) (op_isExpand a2) b (h1 b false) (h2 b false)
  | optional =>
    cases ha with
    | nil => exact Sim.refl _
    | cons a1 ha => cases ha with
      | nil => exact Sim.refl _
      | cons a2 ha => cases ha with
        | cons _ _ => exact Sim.refl _
        | nil => cases hd with
          | nil => exact Sim.refl _
          | cons h1 hd => cases hd with
            | nil => exact Sim.refl _
            | cons h2 hd => cases hd with
              | cons _ _ => exact Sim.refl _
              | nil => exact optionalEv_sim (op_isExpand a1) (h1 b false) (h2 b false)
  | dyn =>
    cases ha with
    | nil => exact Sim.refl _
    | @cons x x' _ _ a1 ha => cases ha with
      | nil => exact Sim.refl _
      | cons a2 ha => cases ha with
        | cons _ _ => exact Sim.refl _
        | nil => cases hd with
          | nil => exact Sim.refl _
          | cons h1 hd => cases hd with
            | nil => exact Sim.refl _
            | cons h2 hd => cases hd with
              | cons _ _ => exact Sim.refl _
              | nil =>
                simp only [sem]
                rw [a1]
                exact dynEv_sim X he (h1 b _) (fun l => h2 b l) loc
  | cond =>
    cases ha with
    | nil => exact Sim.refl _
    | cons a1 ha => cases ha with
      | nil => exact Sim.refl _
      | cons a2 ha => cases ha with
        | nil => exact Sim.refl _
        | cons a3 ha => cases ha with
          | cons _ _ => exact Sim.refl _
          | nil => cases hd with
            | nil => exact Sim.refl _
            | cons h1 hd => cases hd with
              | nil => exact Sim.refl _
              | cons h2 hd => cases hd with
                | nil => exact Sim.refl _
                | cons h3 hd => cases hd with
                  | cons _ _ => exact Sim.refl _
                  | nil => exact condEv_sim (op_isExpand a1) (h1 b false) (h2 b false) (h3 b false)
  | slice s t =>
    cases s <;> cases t
    · exact Sim.refl _
    · cases ha with
      | nil => exact Sim.refl _
      | cons a1 ha => cases ha with
        | nil => exact Sim.refl _
        | cons a2 ha => cases ha with
          | cons _ _ => exact Sim.refl _
          | nil => cases hd with
            | nil => exact Sim.refl _
            | cons h1 hd => cases hd with
              | nil => exact Sim.refl _
              | cons h2 hd => cases hd with
                | cons _ _ => exact Sim.refl _
                | nil => exact sliceEv_sim X he (op_isExpand a2) (op_isExpand a2) (h1 b loc) .none (.some (h2 b false)) loc
    · cases ha with
      | nil => exact Sim.refl _
      | cons a1 ha => cases ha with
        | nil => exact Sim.refl _
        | cons a2 ha => cases ha with
          | cons _ _ => exact Sim.refl _
          | nil => cases hd with
            | nil => exact Sim.refl _
            | cons h1 hd => cases hd with
              | nil => exact Sim.refl _
              | cons h2 hd => cases hd with
                | cons _ _ => exact Sim.refl _
                | nil => exact sliceEv_sim X he (op_isExpand a2) (op_isExpand a2) (h1 b loc) (.some (h2 b false)) .none loc
    · cases ha with
      | nil => exact Sim.refl _
      | cons a1 ha => cases ha with
        | nil => exact Sim.refl _
        | cons a2 ha => cases ha with
          | nil => exact Sim.refl _
          | cons a3 ha => cases ha with
            | cons _ _ => exact Sim.refl _
            | nil => cases hd with
              | nil => exact Sim.refl _
              | cons h1 hd => cases hd with
                | nil => exact Sim.refl _
                | cons h2 hd => cases hd with
                  | nil => exact Sim.refl _
                  | cons h3 hd => cases hd with
                    | cons _ _ => exact Sim.refl _
                    | nil => exact sliceEv_sim X he (op_isExpand a2) (op_isExpand a3) (h1 b loc) (.some (h2 b false)) (.some (h3 b false)) loc

theorem eval_group (X : EvLib) (e : Ex) : eval X (.node .group [e]) = eval X e := by
  funext b loc
  simp only [eval, evalL, sem]

/-- Parentheses around the operand of `!` or a path. -/
theorem sem_group (X : EvLib) {op : Op} (hop : addsGroupEx op = true) {args args' : List Ex} {ds ds' : List Den}
    (hl : args.length = args'.length) (hd : List.Forall₂ SimD ds ds') : SimD (sem X op args ds) (sem X op args' ds') := by
  intro b loc
  have he : isExpand (.node op args) = isExpand (.node op args') := op_isExpand rfl
  cases op with
  | not =>
    match args, args', hl with
    | [], [], _ => exact Sim.refl _
    | [a], [a'], _ => cases hd with
      | nil => exact Sim.refl _
      | cons h1 hd => cases hd with
        | cons _ _ => exact Sim.refl _
        | nil => exact notEv_sim (h1 b false)
    | _ :: _ :: _, _ :: _ :: _, _ => exact Sim.refl _
  | qual p =>
    cases hd with
    | nil => exact Sim.refl _
    | cons h1 hd => cases hd with
      | nil => exact qualEv_sim X he p (h1 b loc) loc
      | cons _ _ => exact Sim.refl _
  | _ => cases hop

theorem forall2_map_left {α β : Type} {R : α → β → Prop} {f : α → β} (l : List α) (h : ∀ a ∈ l, R a (f a)) : List.Forall₂ R l (l.map f) := by
  induction l with
  | nil => exact .nil
  | cons a r ih => exact .cons (h a List.mem_cons_self) (ih (fun x hx => h x (List.mem_cons_of_mem _ hx)))

/-- The additional parentheses do not matter. -/
theorem eval_regroup (X : EvLib) (e : Ex) (h : hasValidOr e = false) : SimD (eval X e) (eval X (regroupEx e)) := by
  revert h
  refine Ex.rec (motive_1 := fun e => hasValidOr e = false → SimD (eval X e) (eval X (regroupEx e)))
    (motive_2 := fun l => hasValidOrL l = false → List.Forall₂ SimD (evalL X l) (evalL X (regroupExL l))) ?_ ?_ ?_ e
  · intro op args ih h
    rw [hasValidOr, Bool.or_eq_false_iff] at h
    have hd := ih h.2
    rw [regroupEx, eval, eval]
    split
    · rename_i hg
      refine sem_group X hg (by rw [List.length_map, regroupExL_map, List.length_map]) ?_
      have : evalL X ((regroupExL args).map (fun e => .node .group [e])) = evalL X (regroupExL args) := by
        rw [evalL_eq, evalL_eq, List.map_map]
        refine List.map_congr_left (fun a _ => ?_)
        exact eval_group X a
      rw [this]; exact hd
    · refine sem_sim X h.1 ?_ hd
      rw [regroupExL_map]
      exact forall2_map_left args (fun a _ => by obtain ⟨o, l⟩ := a; rw [regroupEx]; rfl)
  · intro _; exact .nil
  · intro a r iha ihr h
    rw [hasValidOrL, Bool.or_eq_false_iff] at h
    exact .cons (iha h.1) (ihr h.2)

end Spiff
