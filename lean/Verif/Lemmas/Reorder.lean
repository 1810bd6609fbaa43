import Verif.Spec.Reorder
import Verif.Lemmas.Agree
import Verif.Props.Equiv
/-
One-step characterisation of documents that are equal up to the order of fields, and closure of this
relation under the operations on nodes.
-/
namespace Spiff
open Spec
variable {E : Type}

/-- the fields of two maps, one level -/
def MSame (m m' : List (String × Node E)) : Prop :=
  MapOK m ∧ MapOK m' ∧ ∀ k, Both Same (mget m k) (mget m' k)

/-- values, one level -/
def VSame : Val E → Val E → Prop
  | .list l, .list l' => List.Forall₂ Same l l'
  | .map m, .map m' => MSame m m'
  | .templ n, .templ n' => Same n n'
  | .list _, _ => False
  | .map _, _ => False
  | .templ _, _ => False
  | a, b => a = b

theorem Both_and {α : Type} {H K : α → α → Prop} {P Q : α → Prop} {x y : Option α} (h : Both H x y) (hp : ∀ a, x = some a → P a)
    (hq : ∀ a, y = some a → Q a) (hk : ∀ a b, H a b → P a → Q b → K a b) : Both K x y := by
  cases x <;> cases y <;> simp_all [Both]

theorem forall2_iff_both {α : Type} {H : α → α → Prop} {l l' : List α} : List.Forall₂ H l l' ↔ ∀ i : Nat, Both H l[i]? l'[i]? := by
  induction l generalizing l' with
  | nil =>
    cases l' with
    | nil => simp [Both]
    | cons b r => exact ⟨fun h => (by cases h), fun h => (h 0).elim⟩
  | cons a r ih =>
    cases l' with
    | nil => exact ⟨fun h => (by cases h), fun h => (h 0).elim⟩
    | cons b r' =>
      rw [List.forall₂_cons, ih]
      refine ⟨fun h i => ?_, fun h => ⟨h 0, fun i => h (i + 1)⟩⟩
      cases i with
      | zero => exact h.1
      | succ i => exact h.2 i

/-- no list, map or template -/
def isLeaf : Val E → Bool
  | .list _ => false
  | .map _ => false
  | .templ _ => false
  | _ => true

theorem vsame_cases {v v' : Val E} (h : VSame v v') : (v = v' ∧ isLeaf v = true) ∨
    (∃ l l', v = .list l ∧ v' = .list l' ∧ List.Forall₂ Same l l') ∨ (∃ m m', v = .map m ∧ v' = .map m' ∧ MSame m m') ∨
    (∃ x x', v = .templ x ∧ v' = .templ x' ∧ Same x x') := by
  cases v <;> cases v' <;> simp_all [VSame, isLeaf]

theorem vsame_leaf {v : Val E} (h : isLeaf v = true) : VSame v v := by
  cases v <;> simp_all [VSame, isLeaf]

/-- the step into the structure -/
theorem same_iff {a b : Node E} : Same a b ↔ VSame a.val b.val ∧ a.src = b.src ∧ a.ann = b.ann := by
  obtain ⟨v, s, n⟩ := a
  obtain ⟨v', s', n'⟩ := b
  have hs : Same (Node.mk v s n) (Node.mk v' s' n') ↔ Reordered (Node.mk v s n) (Node.mk v' s' n') ∧ GoMaps (Node.mk v s n) ∧ GoMaps (Node.mk v' s' n') :=
    ⟨fun h => ⟨h.1, h.2, h.3⟩, fun h => ⟨h.1, h.2.1, h.2.2⟩⟩
  rw [hs]
  unfold Reordered
  rw [agree_step]
  simp only [Node.val, Node.src, Node.ann, GoMaps]
  constructor
  · rintro ⟨⟨⟨h1, h2, h3⟩, h4⟩, h5, h6⟩
    refine ⟨?_, h2, h3⟩
    cases v <;> cases v' <;> simp only [SameLeaf, VSame] at h1 ⊢ <;> first | exact h1 | (cases h1; done) | skip
    · rename_i l l'
      rw [forall2_iff_both]
      intro i
      simp only [GoMapsV, GoMapsL_iff] at h5 h6
      exact Both_and (h4 (.idx i)) (fun a ha => h5 a (List.mem_of_getElem? ha)) (fun a ha => h6 a (List.mem_of_getElem? ha))
        (fun a b x y z => ⟨x, y, z⟩)
    · rename_i m m'
      simp only [GoMapsV, GoMapsM_iff] at h5 h6
      refine ⟨h5.1, h6.1, fun k => ?_⟩
      exact Both_and (h4 (.key k)) (fun a ha => h5.2 _ (mget_some_mem ha)) (fun a ha => h6.2 _ (mget_some_mem ha))
        (fun a b x y z => ⟨x, y, z⟩)
    · simp only [GoMapsV] at h5 h6
      exact ⟨h4 .body, h5, h6⟩
  · rintro ⟨h1, h2, h3⟩
    have hx := vsame_cases h1
    clear h1
    rcases hx with ⟨rfl, hl⟩ | ⟨l, l', rfl, rfl, h1⟩ | ⟨m, m', rfl, rfl, h1⟩ | ⟨x, x', rfl, rfl, h1⟩
    · refine ⟨⟨⟨?_, h2, h3⟩, fun i => ?_⟩, ?_, ?_⟩ <;> cases v <;> simp_all [isLeaf, SameLeaf, child, Both, GoMapsV]
    · rw [forall2_iff_both] at h1
      refine ⟨⟨⟨trivial, h2, h3⟩, fun i => ?_⟩, ?_, ?_⟩
      · cases i with
        | idx i => exact Both_mono (fun a b x => x.1) (h1 i)
        | key k => trivial
        | body => trivial
      · simp only [GoMapsV, GoMapsL_iff]
        intro n hn
        obtain ⟨i, hi⟩ := List.getElem?_of_mem hn
        have := h1 i
        rw [hi] at this
        cases hb : l'[i]? with
        | none => rw [hb] at this; exact this.elim
        | some b => rw [hb] at this; exact this.2
      · simp only [GoMapsV, GoMapsL_iff]
        intro n hn
        obtain ⟨i, hi⟩ := List.getElem?_of_mem hn
        have := h1 i
        rw [hi] at this
        cases hb : l[i]? with
        | none => rw [hb] at this; exact this.elim
        | some b => rw [hb] at this; exact this.3
    · obtain ⟨q1, q2, q3⟩ := h1
      refine ⟨⟨⟨trivial, h2, h3⟩, fun i => ?_⟩, ⟨q1, ?_⟩, ⟨q2, ?_⟩⟩
      · cases i with
        | key i => exact Both_mono (fun a b x => x.1) (q3 i)
        | idx k => trivial
        | body => trivial
      · rw [GoMapsM_iff]
        rintro ⟨k, n⟩ hn
        have := q3 k
        rw [mget_of_mem q1 hn] at this
        cases hb : mget m' k with
        | none => rw [hb] at this; exact this.elim
        | some b => rw [hb] at this; exact this.2
      · rw [GoMapsM_iff]
        rintro ⟨k, n⟩ hn
        have := q3 k
        rw [mget_of_mem q2 hn] at this
        cases hb : mget m k with
        | none => rw [hb] at this; exact this.elim
        | some b => rw [hb] at this; exact this.3
    · refine ⟨⟨⟨trivial, h2, h3⟩, fun i => ?_⟩, h1.2, h1.3⟩
      cases i with
      | key i => trivial
      | idx k => trivial
      | body => exact h1.1

theorem sameValue_iff {v v' : Val E} : SameValue v v' ↔ VSame v v' := by
  unfold SameValue
  rw [same_iff]
  simp [Node.new, Node.val, Node.src, Node.ann]

theorem sameFields_iff {m m' : List (String × Node E)} : SameFields m m' ↔ MSame m m' := by
  unfold SameFields
  rw [same_iff]
  simp [Node.new, Node.val, Node.src, Node.ann, VSame]

end Spiff
