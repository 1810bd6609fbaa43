import Verif.Props.Reorder
import Verif.Props.Comparison
/-
The loop of the processing, for documents that are equal up to the order of fields.
-/
namespace Spiff
open Spec
variable {E : Type}

theorem sameKind_leaf {v v' w w' : Val E} (h : SameLeaf v v') (h' : SameLeaf w w') : SameKind v w → SameKind v' w' := by
  cases v <;> cases v' <;> simp only [SameLeaf, reduceCtorEq, Val.bool.injEq, Val.int.injEq, Val.float.injEq, Val.str.injEq, Val.expr.injEq, Val.lambda.injEq] at h <;>
  cases w <;> simp only [SameKind, false_implies] <;>
  cases w' <;> simp only [SameLeaf, reduceCtorEq, Val.bool.injEq, Val.int.injEq, Val.float.injEq, Val.str.injEq, Val.expr.injEq, Val.lambda.injEq] at h' <;>
  simp_all [SameKind]

theorem Both_four {α : Type} {H K K' L : α → α → Prop} {x y x' y' : Option α} (h : Both H x y) (hx : Both K x x') (hy : Both K' y y')
    (hh : ∀ a b a' b', H a b → K a a' → K' b b' → L a' b') : Both L x' y' := by
  cases x <;> cases y <;> cases x' <;> cases y' <;> simp_all [Both]
  exact hh _ _ _ _ h hx hy

theorem identical_same {a b a' b' : Node E} (ha : Same a a') (hb : Same b b') (h : Identical a b) : Identical a' b' := by
  intro p
  refine Both_four (h p) (ha.reordered p) (hb.reordered p) ?_
  rintro x y x' y' ⟨h1, h2, h3⟩ ⟨k1, k2, k3⟩ ⟨l1, l2, l3⟩
  exact ⟨sameKind_leaf k1 l1 h1, by rw [← k2, ← l2, h2], by rw [← k3, ← l3, h3]⟩

theorem sameContent_same {a b a' b' : Node E} (ha : Same a a') (hb : Same b b') (h : SameContent a b) : SameContent a' b' := by
  intro p
  refine Both_four (h p) (ha.reordered p) (hb.reordered p) ?_
  rintro x y x' y' h1 ⟨k1, k2, k3⟩ ⟨l1, l2, l3⟩
  exact sameKind_leaf k1 l1 h1

theorem deepEq_same [DecidableEq E] {a b a' b' : Node E} (ha : Same a a') (hb : Same b b') : deepEq a b = deepEq a' b' := by
  rw [Bool.eq_iff_iff, deepEq_iff_identical _ _ ha.left hb.left, deepEq_iff_identical _ _ ha.right hb.right]
  exact ⟨identical_same ha hb, identical_same ha.symm hb.symm⟩

theorem passEnv_same {env env' : Env E} (he : SameEnv env env') {s s' : Node E} (hs : Same s s') : SameEnv (passEnv env s) (passEnv env' s') := by
  unfold passEnv
  rcases vsame_cases hs.val with ⟨e, hl⟩ | ⟨l, l', e, e', h1⟩ | ⟨m, m', e, e', h1⟩ | ⟨x, x', e, e', h1⟩
  · rw [← e]
    revert hl
    cases s.val <;> intro hl <;> first | exact he | (simp [isLeaf] at hl; done)
  · rw [e, e']; exact he.withListScope h1
  · rw [e, e']; exact he
  · rw [e, e']; exact he

theorem flowLoop_eq [DecidableEq E] (L : Lang E) (fuel : Nat) (env : Env E) (source : Node E) (so : Bool) (n : Nat) (r : Node E) :
    flowLoop L fuel env source so (n + 1) r = (flow L fuel (passEnv env source) r so false).bind (fun next =>
      if next.ann.undefined then .ok (Node.new Val.nil "__ctx").undefinedNode
      else if deepEq r next then .ok r
      else flowLoop L fuel env source so n next) := rfl

/-- The loop: any run of the checking loop yields the same for the reordered document with the plain loop. -/
theorem flowLoop_same [DecidableEq E] {L : Lang E} (hL : OrderFree L) (fuel : Nat) {env env' : Env E} (he : SameEnv env env') {source source' : Node E}
    (hs : Same source source') (so : Bool) (n : Nat) : ∀ {r r' : Node E}, Same r r' → Delivers Same (flowLoopC L fuel env source so n r) (flowLoop L fuel env' source' so n r') := by
  induction n with
  | zero => intro r r' _; exact yields_error
  | succ n ih =>
    intro r r' hr
    rw [flowLoop_eq, flowLoopC]
    refine yields_bind (flowC_flow hL fuel (passEnv env source) (passEnv env' source') r r' so false (passEnv_same he hs) hr) ?_
    intro x y hxy
    rw [← hxy.ann, ← deepEq_same hr hxy]
    split
    · exact yields_ok (Spec.Same.undefinedNode (same_new (vsame_leaf rfl) _))
    · split
      · exact yields_ok hr
      · exact ih hxy

theorem flowLoopC_same [DecidableEq E] {L : Lang E} (hL : OrderFree L) (fuel : Nat) {env env' : Env E} (he : SameEnv env env') {source source' : Node E}
    (hs : Same source source') (so : Bool) (n : Nat) : ∀ {r r' : Node E}, Same r r' → Delivers Same (flowLoopC L fuel env source so n r) (flowLoopC L fuel env' source' so n r') := by
  induction n with
  | zero => intro r r' _; exact yields_error
  | succ n ih =>
    intro r r' hr
    rw [flowLoopC, flowLoopC]
    refine yields_bind (flowC_flowC hL fuel (passEnv env source) (passEnv env' source') r r' so false (passEnv_same he hs) hr) ?_
    intro x y hxy
    rw [← hxy.ann, ← deepEq_same hr hxy]
    split
    · exact yields_ok (Spec.Same.undefinedNode (same_new (vsame_leaf rfl) _))
    · split
      · exact yields_ok hr
      · exact ih hxy

/-! ### the equality `a == b` -/

theorem loose_same {a b : Val E} (h : Loose a b) : ∀ {a' b' : Val E}, VSame a a' → VSame b b' → Loose a' b' := by
  induction h with
  | list l l' hl h ih =>
    intro a' b' ha hb
    cases a' <;> simp only [VSame] at ha
    cases b' <;> simp only [VSame] at hb
    refine .list _ _ (by rw [← ha.length_eq, ← hb.length_eq, hl]) ?_
    intro i x y hx hy
    have h1 := forall2_get ha i
    have h2 := forall2_get hb i
    rw [hx] at h1
    rw [hy] at h2
    rcases both_some h1 with ⟨_, h⟩ | ⟨x0, _, e1, e2, h1⟩
    · cases h
    rcases both_some h2 with ⟨_, h⟩ | ⟨y0, _, e3, e4, h2⟩
    · cases h
    cases e2
    cases e4
    exact ih i x0 y0 e1 e3 h1.val h2.val
  | map m m' hk h ih =>
    intro a' b' ha hb
    cases a' <;> simp only [VSame] at ha
    cases b' <;> simp only [VSame] at hb
    refine .map _ _ (fun k => by rw [← ha.keys.mem_iff, ← hb.keys.mem_iff, hk]) ?_
    intro i x y hx hy
    have h1 := ha.2.2 i
    have h2 := hb.2.2 i
    rw [hx] at h1
    rw [hy] at h2
    rcases both_some h1 with ⟨_, h⟩ | ⟨x0, _, e1, e2, h1⟩
    · cases h
    rcases both_some h2 with ⟨_, h⟩ | ⟨y0, _, e3, e4, h2⟩
    · cases h
    cases e2
    cases e4
    exact ih i x0 y0 e1 e3 h1.val h2.val
  | templ a b h =>
    intro a' b' ha hb
    cases a' <;> simp only [VSame] at ha
    cases b' <;> simp only [VSame] at hb
    exact .templ _ _ (sameContent_same ha hb h)
  | _ =>
    intro a' b' ha hb
    cases a' <;> simp only [VSame, reduceCtorEq] at ha
    cases b' <;> simp only [VSame, reduceCtorEq] at hb
    cases ha
    cases hb
    first
    | exact .nil
    | exact .str _
    | exact .str_int _
    | exact .str_bool _
    | exact .str_lambda _
    | exact .int _
    | exact .int_str _ _ ‹_›
    | exact .int_bool _
    | exact .bool _
    | exact .bool_str _ _ ‹_›
    | exact .lambda _

theorem goMapsV_of {v v' : Val E} (h : VSame v v') : GoMapsV v ∧ GoMapsV v' := by
  have := same_new (s := "") h
  exact ⟨this.left, this.right⟩

theorem vsame_symm {v v' : Val E} (h : VSame v v') : VSame v' v := by
  have := (same_new (s := "") h).symm.val
  exact this

theorem eqVals_same [DecidableEq E] {a b a' b' : Val E} (ha : VSame a a') (hb : VSame b b') : eqVals a b = eqVals a' b' := by
  have q := eq_iff (Node.new b "") a (goMapsV_of ha).1 (goMapsV_of hb).1
  have q' := eq_iff (Node.new b' "") a' (goMapsV_of ha).2 (goMapsV_of hb).2
  simp only [Node.val_new] at q q'
  rw [Bool.eq_iff_iff, q, q']
  exact ⟨fun h => loose_same h ha hb, fun h => loose_same h (vsame_symm ha) (vsame_symm hb)⟩

end Spiff
