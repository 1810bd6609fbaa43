import Verif.Spec.Agree
import Verif.Lemmas.Maps
import Mathlib.Data.List.Perm.Subperm
namespace Spiff.Spec
variable {E : Type}

theorem Both_mono {α : Type} {H K : α → α → Prop} (h : ∀ a b, H a b → K a b) {x y : Option α} (hb : Both H x y) : Both K x y := by
  cases x <;> cases y <;> simp_all [Both]

theorem agree_step {H : Node E → Node E → Prop} {a b : Node E} :
    AgreeBy H a b ↔ H a b ∧ ∀ i, Both (AgreeBy H) (child a.val i) (child b.val i) := by
  constructor
  · intro h
    refine ⟨h [], fun i => ?_⟩
    have h1 := fun p => h (i :: p)
    simp only [locate] at h1
    cases ha : child a.val i with
    | none =>
      cases hb : child b.val i with
      | none => trivial
      | some y => have := h1 []; simp [ha, hb, locate, Both] at this
    | some x =>
      cases hb : child b.val i with
      | none => have := h1 []; simp [ha, hb, locate, Both] at this
      | some y => intro p; have := h1 p; simpa [ha, hb] using this
  · rintro ⟨h1, h2⟩ p
    cases p with
    | nil => exact h1
    | cons i p =>
      simp only [locate]
      have := h2 i
      cases ha : child a.val i with
      | none =>
        cases hb : child b.val i with
        | none => trivial
        | some y => simp [ha, hb, Both] at this
      | some x =>
        cases hb : child b.val i with
        | none => simp [ha, hb, Both] at this
        | some y => simp only [ha, hb, Both] at this; exact this p

theorem Both_list {α : Type} {H : α → α → Prop} {l l' : List α} :
    (∀ i : Nat, Both H l[i]? l'[i]?) ↔ l.length = l'.length ∧ ∀ x ∈ l.zip l', H x.1 x.2 := by
  induction l generalizing l' with
  | nil =>
    cases l' with
    | nil => simp [Both]
    | cons b r => simp only [List.length_nil, List.length_cons]; constructor
                  · intro h; exact (h 0).elim
                  · intro h; omega
  | cons a r ih =>
    cases l' with
    | nil => simp only [List.length_nil, List.length_cons]; constructor
             · intro h; exact (h 0).elim
             · intro h; omega
    | cons b r' =>
      have := @ih r'
      simp only [List.length_cons, List.zip_cons_cons, List.mem_cons, forall_eq_or_imp]
      constructor
      · intro h
        have h0 := h 0
        have h1 := this.1 (fun i => h (i + 1))
        exact ⟨by omega, h0, h1.2⟩
      · rintro ⟨h1, h2, h3⟩ i
        cases i with
        | zero => exact h2
        | succ i => exact this.2 ⟨by omega, h3⟩ i

/-- Comparing all entries of one map with the other map, given the same size. -/
theorem Both_map {α : Type} {H : α → α → Prop} {m m' : List (String × α)} (hm : MapOK m) (hm' : MapOK m') :
    (∀ k : String, Both H (mget m k) (mget m' k)) ↔
      m.length = m'.length ∧ ∀ e ∈ m, ∃ b, mget m' e.1 = some b ∧ H e.2 b := by
  have card : (∀ k ∈ mkeys m, k ∈ mkeys m') → m'.length ≤ m.length → ∀ k ∈ mkeys m', k ∈ mkeys m := by
    intro hsub hlen k hk
    have h1 : (mkeys m).Subperm (mkeys m') := List.subperm_of_subset hm hsub
    have h2 := h1.perm_of_length_le (by simpa [mkeys] using hlen)
    exact h2.mem_iff.2 hk
  constructor
  · intro h
    have hs : ∀ k, k ∈ mkeys m ↔ k ∈ mkeys m' := by
      intro k
      have := h k
      constructor
      · intro hk
        cases hg : mget m k with
        | none => exact absurd hk (mget_none_iff.1 hg)
        | some a =>
          cases hg' : mget m' k with
          | none => simp [hg, hg', Both] at this
          | some b =>
            refine Classical.byContradiction (fun hc => ?_)
            rw [mget_none_iff.2 hc] at hg'; simp at hg'
      · intro hk
        cases hg' : mget m' k with
        | none => exact absurd hk (mget_none_iff.1 hg')
        | some a =>
          cases hg : mget m k with
          | none => simp [hg, hg', Both] at this
          | some b =>
            refine Classical.byContradiction (fun hc => ?_)
            rw [mget_none_iff.2 hc] at hg; simp at hg
    refine ⟨?_, ?_⟩
    · have h1 : (mkeys m).Perm (mkeys m') := (List.perm_ext_iff_of_nodup hm hm').2 hs
      simpa [mkeys] using h1.length_eq
    · intro e he
      have hg := mget_of_mem hm (k := e.1) (v := e.2) he
      have := h e.1
      rw [hg] at this
      cases hg' : mget m' e.1 with
      | none => simp [hg', Both] at this
      | some b => exact ⟨b, rfl, by simpa [hg', Both] using this⟩
  · rintro ⟨h1, h2⟩ k
    have hsub : ∀ k ∈ mkeys m, k ∈ mkeys m' := by
      intro k hk
      obtain ⟨e, he, rfl⟩ := List.mem_map.1 hk
      obtain ⟨b, hb, _⟩ := h2 e he
      exact List.mem_map.2 ⟨_, mget_some_mem hb, rfl⟩
    cases hg : mget m k with
    | none =>
      have hk := mget_none_iff.1 hg
      have : k ∉ mkeys m' := fun hc => hk (card hsub (by omega) k hc)
      rw [mget_none_iff.2 this]; trivial
    | some a =>
      obtain ⟨b, hb, hh⟩ := h2 (k, a) (mget_some_mem hg)
      simp only at hb hh
      rw [hb]; exact hh

theorem GoMapsL_iff {l : List (Node E)} : GoMapsL l ↔ ∀ n ∈ l, GoMaps n := by
  induction l with
  | nil => simp [GoMapsL]
  | cons a r ih => simp [GoMapsL, ih]
theorem GoMapsM_iff {m : List (String × Node E)} : GoMapsM m ↔ ∀ e ∈ m, GoMaps e.2 := by
  induction m with
  | nil => simp [GoMapsM]
  | cons a r ih => obtain ⟨k, n⟩ := a; simp [GoMapsM, ih]

end Spiff.Spec
