import Verif.Lemmas.Reorder2
import Verif.Props.Flow
import Verif.Props.Find
/-
The functions of one processing pass on documents that are equal up to the order of fields: environments, maps.
-/
namespace Spiff
open Spec
variable {E : Type}

/-! ### environments -/

theorem Spec.SameEnv.withPath {e e' : Env E} (h : SameEnv e e') (s : String) : SameEnv (e.withPath s) (e'.withPath s) :=
  ⟨h.1, by simp [Env.withPath, h.path], h.3, by simp [Env.withPath, h.stubPath], h.5, h.6, h.7, h.8⟩

theorem Spec.SameEnv.withScope {e e' : Env E} (h : SameEnv e e') {m m' : List (String × Node E)} (hm : MSame m m') :
    SameEnv (e.withScope m) (e'.withScope m') :=
  ⟨.cons ⟨trivial, sameFields_iff.2 hm, by simp [h.path]⟩ h.1, h.2, h.3, h.4, h.5, h.6, h.7, h.8⟩

theorem Spec.SameEnv.withListScope {e e' : Env E} (h : SameEnv e e') {l l' : List (Node E)} (hl : List.Forall₂ Same l l') :
    SameEnv (e.withListScope l) (e'.withListScope l') := by
  refine ⟨.cons ⟨hl, ?_, by simp [h.path]⟩ h.1, h.2, h.3, h.4, h.5, h.6, h.7, h.8⟩
  have h1 := h.scopes
  cases hs : e.scopes <;> cases hs' : e'.scopes <;> rw [hs, hs'] at h1 <;> cases h1
  · trivial
  · rename_i hab _; exact hab.locals

theorem Spec.SameEnv.withSource {e e' : Env E} (h : SameEnv e e') (s : String) : SameEnv (e.withSource s) (e'.withSource s) :=
  ⟨h.1, h.2, h.3, h.4, h.5, rfl, h.7, h.8⟩

theorem Spec.SameEnv.redirectOverwrite {e e' : Env E} (h : SameEnv e e') (p : List String) : SameEnv (e.redirectOverwrite p) (e'.redirectOverwrite p) := by
  unfold Env.redirectOverwrite
  split
  · exact ⟨h.1, h.2, h.3, rfl, rfl, h.6, h.7, h.8⟩
  · exact ⟨h.1, h.2, h.3, h.4, rfl, h.6, h.7, h.8⟩

/-! ### computations -/

theorem yields_ok {α β : Type} {H : α → β → Prop} {a : α} {b : β} (h : H a b) : Delivers H (.ok a) (.ok b) := by
  intro x hx; cases hx; exact ⟨b, rfl, h⟩

theorem yields_error {α β : Type} {H : α → β → Prop} {s : Stop} {y : Run β} : Delivers H (.error s : Run α) y := by
  intro x hx; cases hx

theorem yields_bind {α β γ δ : Type} {H : α → β → Prop} {K : γ → δ → Prop} {x : Run α} {y : Run β} {f : α → Run γ} {g : β → Run δ}
    (h : Delivers H x y) (hf : ∀ a b, H a b → Delivers K (f a) (g b)) : Delivers K (x.bind f) (y.bind g) := by
  intro c hc
  cases x with
  | error s => cases hc
  | ok a =>
    obtain ⟨b, rfl, hab⟩ := h a rfl
    exact hf a b hab c hc

theorem yields_map {α β γ δ : Type} {H : α → β → Prop} {K : γ → δ → Prop} {x : Run α} {y : Run β} {f : α → γ} {g : β → δ}
    (h : Delivers H x y) (hf : ∀ a b, H a b → K (f a) (g b)) : Delivers K (x.map f) (y.map g) := by
  intro c hc
  cases x with
  | error s => cases hc
  | ok a =>
    obtain ⟨b, rfl, hab⟩ := h a rfl
    cases hc
    exact ⟨_, rfl, hf a b hab⟩

/-- the recursive calls deliver the same -/
def RecSame (rec rec' : FlowFn E) : Prop :=
  ∀ env env' n n' so et, SameEnv env env' → Same n n' → Delivers Same (rec env n so et) (rec' env' n' so et)

/-! ### strings, flags -/

theorem embedded_same (L : Lang E) {n n' : Node E} (h : Same n n') : embedded L n = embedded L n' := by
  unfold embedded
  have := h.val
  cases hv : n.val <;> cases hv' : n'.val <;> simp_all [VSame]

theorem flowString_same (L : Lang E) {n n' : Node E} (h : Same n n') {env env' : Env E} (he : SameEnv env env') :
    Same (flowString L n env) (flowString L n' env') := by
  unfold flowString
  rw [embedded_same L h, he.path, he.stubPath]
  split
  · exact h
  · split
    · exact h
    · exact h.withVal (vsame_leaf rfl)

theorem inheritedFlags_same {env env' : Env E} (he : SameEnv env env') :
    (inheritedFlags env).1 = (inheritedFlags env').1 ∧ Both Same (inheritedFlags env).2 (inheritedFlags env').2 := by
  unfold inheritedFlags
  rw [he.stubPath]
  rcases both_some (findInStubs_same false he.stubs env'.stubPath) with ⟨q1, q2⟩ | ⟨x, y, q1, q2, q3⟩
  · rw [q1, q2]; exact ⟨rfl, trivial⟩
  · rw [q1, q2]; exact ⟨by simp only [q3.flags], q3⟩

theorem templateExpression_same (L : Lang E) (m : Marker E) {n n' : Node E} (h : Same n n') :
    Both Same (templateExpression L m n) (templateExpression L m n') := by
  unfold templateExpression
  cases m.expr with
  | none => trivial
  | some e => exact (h.withVal (vsame_leaf rfl)).addFlags _

theorem updateNode_same {n n' : Node E} (h : Same n n') (f : Flags) (t : String) : Same (updateNode n f t) (updateNode n' f t) := by
  unfold updateNode
  have h1 := h.addFlags f
  simp only [h1.ann]
  split
  · exact h1.setTag t
  · exact h1

theorem simpleMergeCheck_same (L : Lang E) (i : Bool) {n n' : Node E} (h : Same n n') : simpleMergeCheck L i n = simpleMergeCheck L i n' := by
  unfold simpleMergeCheck
  have := h.val
  cases hv : n.val <;> cases hv' : n'.val <;> simp_all [VSame]

theorem override_same {env env' : Env E} (he : SameEnv env env') {n n' : Node E} (h : Same n n') (so merged replace : Bool)
    (redirect : Option (List String)) (k : String) (fl : Flags) :
    Same (override env n so merged replace redirect k fl) (override env' n' so merged replace redirect k fl) := by
  unfold override
  rw [h.ann, he.nomerge, he.stubPath]
  split
  · rcases both_some (findInStubs_same false he.stubs env'.stubPath) with ⟨q1, q2⟩ | ⟨x, y, q1, q2, q3⟩
    · rw [q1, q2]; exact h
    · rw [q1, q2]
      simp only [q3.flags, h.flags]
      split
      · refine Same.addFlags ?_ _
        have hk : Same (if k ≠ "" then x.keyNameNode k else x) (if k ≠ "" then y.keyNameNode k else y) := by
          split
          · exact q3.keyNameNode k
          · exact q3
        split
        · exact hk.replaceNode hk.val _
        · split
          · exact hk.redirectNode hk.val _
          · split
            · exact hk.mergedNode
            · exact hk
      · exact h
  · exact h

/-! ### maps -/

/-- the same variables of `flowMap` -/
structure VarsSame (v v' : MapVars E) : Prop where
  env : SameEnv v.env v'.env
  flags : v.flags = v'.flags
  tag : v.tag = v'.tag
  processed : v.processed = v'.processed
  merged : v.merged = v'.merged
  template : v.template = v'.template
  redirect : v.redirect = v'.redirect
  replace : v.replace = v'.replace
  addEntries : v.addEntries = v'.addEntries
  newMap : MSame v.newMap v'.newMap
  mergeval : Both Same v.mergeval v'.mergeval
  err : v.err = v'.err

theorem mergeVars_same (L : Lang E) {root root' val val' base base' : Node E} (hr : Same root root') (hv : Same val val') (hb : Same base base')
    {v v' : MapVars E} (h : VarsSame v v') : VarsSame (mergeVars L root val base v) (mergeVars L root' val' base' v') := by
  obtain ⟨e1, f1, t1, p1, m1, te1, r1, rp1, ae1, nm1, mv1, er1⟩ := v
  obtain ⟨e2, f2, t2, p2, m2, te2, r2, rp2, ae2, nm2, mv2, er2⟩ := v'
  obtain ⟨h1, h2, h3, h4, h5, h6, h7, h8, h9, h10, h11, h12⟩ := h
  simp only at h1 h2 h3 h4 h5 h6 h7 h8 h9 h10 h11 h12
  subst h2 h3 h4 h5 h6 h7 h8 h9 h12
  have hval := hb.val
  by_cases hex : ∃ e, base.val = .expr e
  · obtain ⟨e, hbe⟩ := hex
    have hbe' : base'.val = .expr e := by
      rw [hbe] at hval
      cases hc : base'.val <;> rw [hc] at hval <;> simp_all [VSame]
    simp only [mergeVars, hbe, hbe', vsame_isStr hv.val, simpleMergeCheck_same L _ hb]
    cases asTemplate L e te1 with
    | none =>
      simp only
      split
      · exact ⟨h1, rfl, rfl, rfl, rfl, rfl, rfl, rfl, rfl, h10, trivial, rfl⟩
      · exact ⟨h1, rfl, rfl, rfl, rfl, rfl, rfl, rfl, rfl, h10, hb, rfl⟩
    | some m =>
      simp only
      split
      · exact ⟨h1, rfl, rfl, rfl, rfl, rfl, rfl, rfl, rfl, h10, templateExpression_same L m hr, rfl⟩
      · split
        · exact ⟨h1, rfl, rfl, rfl, rfl, rfl, rfl, rfl, rfl, h10, trivial, rfl⟩
        · exact ⟨h1, rfl, rfl, rfl, rfl, rfl, rfl, rfl, rfl, h10, hb, rfl⟩
  · have hem := embedded_same L hb
    obtain ⟨bv, bs, ba⟩ := base
    obtain ⟨bv', bs', ba'⟩ := base'
    have hs := hb.src
    have ha := hb.ann
    simp only [Node.src, Node.ann, Node.val] at hs ha hval hex
    subst hs ha
    generalize hpe : embedded L (Node.mk bv bs ba) = pe at hem
    obtain ⟨rd, rp, a3, mg, a5, a6, a7, a8, a9, a10, a11⟩ := ba
    cases bv <;> cases bv' <;> simp only [VSame] at hval <;> (try (cases hval; done)) <;> (try exact absurd ⟨_, rfl⟩ hex) <;>
      cases rd <;> cases mg <;> cases pe <;>
      simp only [mergeVars, Node.val, Node.ann, hpe, ← hem] <;>
      first
      | exact ⟨h1, rfl, rfl, rfl, rfl, rfl, rfl, rfl, rfl, h10, trivial, rfl⟩
      | exact ⟨h1, rfl, rfl, rfl, rfl, rfl, rfl, rfl, rfl, h10, hb, rfl⟩
      | exact ⟨h1.redirectOverwrite _, rfl, rfl, rfl, rfl, rfl, rfl, rfl, rfl, h10, trivial, rfl⟩
      | exact ⟨h1.redirectOverwrite _, rfl, rfl, rfl, rfl, rfl, rfl, rfl, rfl, h10, hb, rfl⟩
      | exact ⟨h1, rfl, rfl, rfl, rfl, rfl, rfl, rfl, rfl, hval, trivial, rfl⟩
      | exact ⟨h1.redirectOverwrite _, rfl, rfl, rfl, rfl, rfl, rfl, rfl, rfl, hval, trivial, rfl⟩

end Spiff
