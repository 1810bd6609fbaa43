import Verif.Lemmas.Reorder
import Verif.Props.MapFns
/-
Lookups in documents that are equal up to the order of fields.
-/
namespace Spiff
open Spec
variable {E : Type}

/-! ### nodes -/

theorem same_mk {v v' : Val E} {s : String} {a : Ann} (h : VSame v v') : Same (Node.mk v s a) (Node.mk v' s a) := by
  rw [same_iff]; exact ⟨h, rfl, rfl⟩

theorem Spec.Same.val {a b : Node E} (h : Same a b) : VSame a.val b.val := (same_iff.1 h).1
theorem Spec.Same.src {a b : Node E} (h : Same a b) : a.src = b.src := (same_iff.1 h).2.1
theorem Spec.Same.ann {a b : Node E} (h : Same a b) : a.ann = b.ann := (same_iff.1 h).2.2
theorem Spec.Same.flags {a b : Node E} (h : Same a b) : a.flags = b.flags := by unfold Node.flags; rw [h.ann]
theorem Spec.Same.withAnn {a b : Node E} (h : Same a b) (f : Ann → Ann) : Same (a.withAnn (f a.ann)) (b.withAnn (f b.ann)) := by
  unfold Node.withAnn
  rw [h.src, h.ann]
  exact same_mk h.val
theorem Spec.Same.withVal {a b : Node E} (h : Same a b) {v v' : Val E} (hv : VSame v v') : Same (a.withVal v) (b.withVal v') := by
  unfold Node.withVal
  rw [h.src, h.ann]
  exact same_mk hv
theorem Spec.Same.addFlags {a b : Node E} (h : Same a b) (f : Flags) : Same (a.addFlags f) (b.addFlags f) := h.withAnn (fun a => { a with flags := a.flags.add f })
theorem Spec.Same.setTag {a b : Node E} (h : Same a b) (t : String) : Same (a.setTag t) (b.setTag t) := h.withAnn (fun a => { a with tag := t })
theorem Spec.Same.issueNode {a b : Node E} (h : Same a b) (x y : Bool) (t : String) : Same (a.issueNode x y t) (b.issueNode x y t) := h.withAnn (fun a => a.addIssue x y t)
theorem Spec.Same.undefinedNode {a b : Node E} (h : Same a b) : Same a.undefinedNode b.undefinedNode := h.withAnn (fun a => { a with undefined := true })
theorem Spec.Same.mergedNode {a b : Node E} (h : Same a b) : Same a.mergedNode b.mergedNode := h.withAnn (fun a => { a with merged := true })
theorem Spec.Same.preferredNode {a b : Node E} (h : Same a b) : Same a.preferredNode b.preferredNode := h.withAnn (fun a => { a with preferred := true })
theorem Spec.Same.keyNameNode {a b : Node E} (h : Same a b) (k : String) : Same (a.keyNameNode k) (b.keyNameNode k) := h.withAnn (fun a => a.addKeyName k)
theorem Spec.Same.redirectNode {a b : Node E} (h : Same a b) {v v' : Val E} (hv : VSame v v') (r : Option (List String)) :
    Same (Node.redirectNode v a r) (Node.redirectNode v' b r) := by
  unfold Node.redirectNode
  rw [h.src, h.ann]
  exact same_mk hv
theorem Spec.Same.replaceNode {a b : Node E} (h : Same a b) {v v' : Val E} (hv : VSame v v') (r : Option (List String)) :
    Same (Node.replaceNode v a r) (Node.replaceNode v' b r) := by
  unfold Node.replaceNode
  rw [h.src, h.ann]
  exact same_mk hv
theorem same_new {v v' : Val E} (hv : VSame v v') (s : String) : Same (Node.new v s) (Node.new v' s) := same_mk hv

theorem vsame_isExpr {v v' : Val E} (h : VSame v v') : v.isExpr = v'.isExpr := by
  cases v <;> cases v' <;> simp_all [VSame, Val.isExpr]
theorem vsame_isStr {v v' : Val E} (h : VSame v v') : v.isStr = v'.isStr := by
  cases v <;> cases v' <;> simp_all [VSame, Val.isStr]
theorem vsame_isNil {v v' : Val E} (h : VSame v v') : v.isNil = v'.isNil := by
  cases v <;> cases v' <;> simp_all [VSame, Val.isNil]

/-! ### symmetry -/

theorem Both_symm {α : Type} {H : α → α → Prop} (hs : ∀ a b, H a b → H b a) {x y : Option α} (h : Both H x y) : Both H y x := by
  cases x <;> cases y <;> simp_all [Both]

theorem Spec.Same.symm {a b : Node E} (h : Same a b) : Same b a := by
  refine ⟨fun p => Both_symm (fun x y hxy => ⟨?_, hxy.2.1.symm, hxy.2.2.symm⟩) (h.1 p), h.3, h.2⟩
  obtain ⟨v, s, n⟩ := x
  obtain ⟨v', s', n'⟩ := y
  have := hxy.1
  simp only [Node.val] at this ⊢
  cases v <;> cases v' <;> simp_all [SameLeaf]

/-- every document is the same as itself -/
theorem same_refl {a : Node E} (h : GoMaps a) : Same a a := by
  refine ⟨fun p => ?_, h, h⟩
  cases locate a p with
  | none => trivial
  | some x =>
    refine ⟨?_, rfl, rfl⟩
    cases x.val <;> simp [SameLeaf]

/-! ### maps -/

theorem MSame.keys {m m' : List (String × Node E)} (h : MSame m m') : (mkeys m).Perm (mkeys m') := by
  obtain ⟨h1, h2, h3⟩ := h
  rw [List.perm_ext_iff_of_nodup h1 h2]
  intro k
  have := h3 k
  constructor
  · intro hk
    refine Classical.byContradiction (fun hc => ?_)
    rw [mget_none_iff.2 hc] at this
    cases hg : mget m k with
    | none => exact (mget_none_iff.1 hg) hk
    | some a => rw [hg] at this; exact this
  · intro hk
    refine Classical.byContradiction (fun hc => ?_)
    rw [mget_none_iff.2 hc] at this
    cases hg : mget m' k with
    | none => exact (mget_none_iff.1 hg) hk
    | some a => rw [hg] at this; exact this

theorem MSame.isSome {m m' : List (String × Node E)} (h : MSame m m') (k : String) : (mget m k).isSome = (mget m' k).isSome := by
  have := h.2.2 k
  cases h1 : mget m k <;> cases h2 : mget m' k <;> simp_all [Both]
theorem MSame.isNone {m m' : List (String × Node E)} (h : MSame m m') (k : String) : (mget m k).isNone = (mget m' k).isNone := by
  have := h.2.2 k
  cases h1 : mget m k <;> cases h2 : mget m' k <;> simp_all [Both]

theorem msame_mset {m m' : List (String × Node E)} (h : MSame m m') {a b : Node E} (hab : Same a b) (k : String) :
    MSame (mset m k a) (mset m' k b) := by
  refine ⟨MapOK_mset h.1 _ _, MapOK_mset h.2.1 _ _, fun k' => ?_⟩
  rw [mget_mset, mget_mset]
  by_cases hk : k' = k
  · simp [hk, Both, hab]
  · simp [hk, h.2.2 k']

theorem msame_nil : MSame ([] : List (String × Node E)) [] := ⟨List.nodup_nil, List.nodup_nil, fun _ => trivial⟩

theorem msame_single {a b : Node E} (h : Same a b) (k : String) : MSame [(k, a)] [(k, b)] := msame_mset msame_nil h k

theorem MSame.any {m m' : List (String × Node E)} (h : MSame m m') (p : String → Bool) : m.any (fun e => p e.1) = m'.any (fun e => p e.1) := by
  have e : ∀ m : List (String × Node E), m.any (fun e => p e.1) = (mkeys m).any p := by
    intro m; simp only [mkeys, List.any_map]; rfl
  rw [e, e, Bool.eq_iff_iff, List.any_eq_true, List.any_eq_true]
  simp only [h.keys.mem_iff]

theorem isMapResolved_same (ctl : Bool) {m m' : List (String × Node E)} (h : MSame m m') : isMapResolved ctl m = isMapResolved ctl m' := by
  unfold isMapResolved
  rw [h.isNone, h.isNone, h.any (fun k => hasPrefix k "<<")]

/-! ### lookups -/

/-- the same outcome of a lookup -/
def LookSame : Look (Node E) → Look (Node E) → Prop
  | .found a, .found b => Same a b
  | .missing, .missing => True
  | .panic, .panic => True
  | _, _ => False

theorem both_some {α : Type} {H : α → α → Prop} {x y : Option α} (h : Both H x y) : (x = none ∧ y = none) ∨ ∃ a b, x = some a ∧ y = some b ∧ H a b := by
  cases x <;> cases y <;> simp_all [Both]

theorem stepMap_same (ctl raw : Bool) {m m' : List (String × Node E)} (h : MSame m m') (k : String) : Both Same (stepMap ctl raw m k) (stepMap ctl raw m' k) := by
  unfold stepMap
  rw [isMapResolved_same ctl h]
  split
  · trivial
  · exact h.2.2 k

theorem same_str {n n' : Node E} (h : Same n n') (s : String) : n.val = .str s ↔ n'.val = .str s := by
  have := h.val
  cases hv : n.val <;> cases hv' : n'.val <;> simp_all [VSame]

theorem vsame_str {v v' : Val E} (h : VSame v v') (s : String) : v = .str s ↔ v' = .str s := by
  cases v <;> cases v' <;> simp_all [VSame]

theorem findNamed_same (ctl raw : Bool) {l l' : List (Node E)} (h : List.Forall₂ Same l l') (key step : String) :
    Both Same (findNamed ctl raw l key step) (findNamed ctl raw l' key step) := by
  induction h with
  | nil => trivial
  | cons hab hr ih =>
    rename_i a b r r'
    unfold findNamed
    rcases vsame_cases hab.val with ⟨e, hl⟩ | ⟨l, l', e, e', h1⟩ | ⟨m, m', e, e', h1⟩ | ⟨x, x', e, e', h1⟩
    · rw [← e]
      revert hl
      cases hv : a.val <;> intro hl <;> first | exact ih | exact absurd hl (by simp [isLeaf])
    · rw [e, e']; exact ih
    · rw [e, e']
      simp only
      rcases both_some (stepMap_same ctl raw h1 key) with ⟨q1, q2⟩ | ⟨x, y, q1, q2, q3⟩
      · rw [q1, q2]; exact ih
      · rw [q1, q2]
        obtain ⟨v, s, n⟩ := x
        obtain ⟨v', s', n'⟩ := y
        have hvv := q3.val
        simp only [Node.val] at hvv
        cases v <;> cases v' <;> simp only [VSame] at hvv <;> (try exact ih) <;> (try (cases hvv; done))
        rename_i s1 s2
        cases hvv
        simp only
        split
        · exact hab
        · exact ih
    · rw [e, e']; exact ih

theorem forall2_get {α : Type} {H : α → α → Prop} {l l' : List α} (h : List.Forall₂ H l l') (i : Nat) : Both H l[i]? l'[i]? := forall2_iff_both.1 h i

theorem indexList_same {l l' : List (Node E)} (h : List.Forall₂ Same l l') (i : Int) : LookSame (indexList l i) (indexList l' i) := by
  have hg : ∀ k : Nat, LookSame (match l[k]? with | some n => .found n | none => .missing) (match l'[k]? with | some n => .found n | none => .missing) := by
    intro k
    rcases both_some (forall2_get h k) with ⟨q1, q2⟩ | ⟨x, y, q1, q2, q3⟩
    · rw [q1, q2]; trivial
    · rw [q1, q2]; exact q3
  unfold indexList
  rw [h.length_eq]
  split
  · trivial
  · split
    · split
      · trivial
      · exact hg _
    · exact hg _

theorem stepList_same (ctl raw : Bool) {l l' : List (Node E)} (h : List.Forall₂ Same l l') (step key : String) :
    LookSame (stepList ctl raw l step key) (stepList ctl raw l' step key) := by
  unfold stepList
  cases listIndex step.toList with
  | some i => exact indexList_same h i
  | none =>
    simp only
    generalize (if key = "" then "name" else key) = key
    cases splitColon step.toList with
    | none =>
      simp only
      rcases both_some (findNamed_same ctl raw h key step) with ⟨q1, q2⟩ | ⟨x, y, q1, q2, q3⟩
      · rw [q1, q2]; trivial
      · rw [q1, q2]; exact q3
    | some p =>
      obtain ⟨k, s⟩ := p
      simp only
      rcases both_some (findNamed_same ctl raw h (String.ofList k) (String.ofList s)) with ⟨q1, q2⟩ | ⟨x, y, q1, q2, q3⟩
      · rw [q1, q2]; trivial
      · rw [q1, q2]; exact q3

theorem msame_single_iff {m m' : List (String × Node E)} (h : MSame m m') : (∃ k v v', m = [(k, v)] ∧ m' = [(k, v')] ∧ Same v v') ∨
    ((∀ k v, m ≠ [(k, v)]) ∧ (∀ k v, m' ≠ [(k, v)])) := by
  have hl : m.length = m'.length := by simpa [mkeys] using h.keys.length_eq
  by_cases h1 : m.length = 1
  · left
    match m, m', h1, hl with
    | [(k, v)], [(k', v')], _, _ =>
      have h3 := h.2.2 k
      simp only [mget, if_true] at h3
      by_cases hk : k' = k
      · subst hk; simp only [if_true] at h3; exact ⟨k', v, v', rfl, rfl, h3⟩
      · rw [if_neg hk] at h3; exact h3.elim
  · right
    exact ⟨fun k v e => h1 (by rw [e]; rfl), fun k v e => h1 (by rw [hl, e]; rfl)⟩

/-- the merge expressions of list entries -/
theorem listEntryMerge_same {n n' : Node E} (h : Same n n') :
    (listEntryMerge n = none ∧ listEntryMerge n' = none) ∨
    ∃ v v' q, listEntryMerge n = some (v, q) ∧ listEntryMerge n' = some (v', q) ∧ Same v v' := by
  unfold listEntryMerge
  rcases vsame_cases h.val with ⟨e, hl⟩ | ⟨l, l', e, e', h1⟩ | ⟨m, m', e, e', h1⟩ | ⟨x, x', e, e', h1⟩
  · rw [← e]
    revert hl
    cases hv : n.val <;> intro hl <;> first | exact .inl ⟨rfl, rfl⟩ | exact absurd hl (by simp [isLeaf])
  · rw [e, e']; exact .inl ⟨rfl, rfl⟩
  · rw [e, e']
    rcases msame_single_iff h1 with ⟨k, v, v', rfl, rfl, hv⟩ | ⟨q1, q2⟩
    · simp only
      by_cases hk : k = "<<"
      · simp only [hk, if_true]; exact .inr ⟨_, _, _, rfl, rfl, hv⟩
      · simp only [hk, if_false]
        by_cases hk : k = MERGEKEY
        · simp only [hk, if_true]; exact .inr ⟨_, _, _, rfl, rfl, hv⟩
        · simp only [hk, if_false]; exact .inl ⟨trivial, trivial⟩
    · left
      constructor
      · match m, q1 with
        | [], _ => rfl
        | [(k, v)], q => exact absurd rfl (q k v)
        | _ :: _ :: _, _ => rfl
      · match m', q2 with
        | [], _ => rfl
        | [(k, v)], q => exact absurd rfl (q k v)
        | _ :: _ :: _, _ => rfl
  · rw [e, e']; exact .inl ⟨rfl, rfl⟩

theorem isListResolved_same {l l' : List (Node E)} (h : List.Forall₂ Same l l') : isListResolved l = isListResolved l' := by
  unfold isListResolved
  induction h with
  | nil => rfl
  | cons hab hr ih =>
    simp only [List.all_cons, ih]
    rcases listEntryMerge_same hab with ⟨q1, q2⟩ | ⟨_, _, _, q1, q2, _⟩ <;> rw [q1, q2] <;> rfl

theorem nextStep_same (ctl raw : Bool) (step : String) {n n' : Node E} (h : Same n n') : LookSame (nextStep ctl raw step n) (nextStep ctl raw step n') := by
  unfold nextStep
  rcases vsame_cases h.val with ⟨e, hl⟩ | ⟨l, l', e, e', h1⟩ | ⟨m, m', e, e', h1⟩ | ⟨x, x', e, e', h1⟩
  · rw [← e]
    revert hl
    cases hv : n.val <;> intro hl <;> first | trivial | exact absurd hl (by simp [isLeaf])
  · rw [e, e', h.ann]
    simp only [isListResolved_same h1]
    split
    · trivial
    · exact stepList_same ctl raw h1 _ _
  · rw [e, e']
    simp only
    rcases both_some (stepMap_same ctl raw h1 step) with ⟨q1, q2⟩ | ⟨x, y, q1, q2, q3⟩
    · rw [q1, q2]; trivial
    · rw [q1, q2]; exact q3
  · rw [e, e']; trivial

theorem findR_same (ctl raw : Bool) (path : List String) {n n' : Node E} (h : Same n n') : LookSame (findR ctl raw n path) (findR ctl raw n' path) := by
  induction path generalizing n n' with
  | nil => exact h
  | cons step path ih =>
    simp only [findR]
    have := nextStep_same ctl raw step h
    cases h1 : nextStep ctl raw step n <;> cases h2 : nextStep ctl raw step n' <;> simp only [h1, h2, LookSame] at this ⊢
    exact ih this

theorem look_option {x y : Look (Node E)} (h : LookSame x y) : Both Same x.toOption y.toOption := by
  cases x <;> cases y <;> simp_all [LookSame, Look.toOption, Both]

theorem find_same (ctl : Bool) (path : List String) {n n' : Node E} (h : Same n n') : Both Same (find ctl n path) (find ctl n' path) :=
  look_option (findR_same ctl false path h)
theorem findRaw_same (ctl : Bool) (path : List String) {n n' : Node E} (h : Same n n') : Both Same (findRaw ctl n path) (findRaw ctl n' path) :=
  look_option (findR_same ctl true path h)
theorem findStr_same (ctl raw : Bool) (path : List String) {n n' : Node E} (h : Same n n') : findStr ctl raw n path = findStr ctl raw n' path := by
  unfold findStr
  rcases both_some (look_option (findR_same ctl raw path h)) with ⟨q1, q2⟩ | ⟨x, y, q1, q2, q3⟩
  · rw [q1, q2]
  · rw [q1, q2]
    obtain ⟨v, s, n⟩ := x
    obtain ⟨v', s', n'⟩ := y
    have hvv := q3.val
    simp only [Node.val] at hvv
    cases v <;> cases v' <;> simp_all [VSame]

theorem findInStubs_same (ctl : Bool) {l l' : List (Node E)} (h : List.Forall₂ Same l l') (path : List String) :
    Both Same (findInStubs ctl l path) (findInStubs ctl l' path) := by
  induction h with
  | nil => trivial
  | cons hab hr ih =>
    unfold findInStubs
    rcases both_some (find_same ctl path hab) with ⟨q1, q2⟩ | ⟨x, y, q1, q2, q3⟩
    · rw [q1, q2]; exact ih
    · rw [q1, q2]
      simp only [q3.flags]
      split
      · exact q3
      · exact ih

end Spiff
