import Verif.Model.Node
namespace Spiff
variable {α : Type}

theorem mget_append_of_none {m m' : List (String × α)} {k : String} (h : mget m k = none) :
    mget (m ++ m') k = mget m' k := by
  induction m with
  | nil => rfl
  | cons e r ih =>
    obtain ⟨k', v⟩ := e
    simp only [mget, List.cons_append] at *
    split <;> simp_all

theorem mget_none_iff {m : List (String × α)} {k : String} : mget m k = none ↔ k ∉ mkeys m := by
  induction m with
  | nil => simp [mget, mkeys]
  | cons e r ih =>
    obtain ⟨k', v⟩ := e
    simp only [mget, mkeys, List.map_cons, List.mem_cons, not_or] at *
    split
    · next h => simp [h]
    · next h => rw [ih]; simp [Ne.symm h]

theorem mget_some_mem {m : List (String × α)} {k : String} {v : α} (h : mget m k = some v) : (k, v) ∈ m := by
  induction m with
  | nil => simp [mget] at h
  | cons e r ih =>
    obtain ⟨k', v'⟩ := e
    simp only [mget] at h
    split at h
    · next hk => simp_all
    · exact List.mem_cons_of_mem _ (ih h)

theorem mget_of_mem {m : List (String × α)} (hm : MapOK m) {k : String} {v : α} (h : (k, v) ∈ m) :
    mget m k = some v := by
  induction m with
  | nil => simp at h
  | cons e r ih =>
    obtain ⟨k', v'⟩ := e
    simp only [MapOK, mkeys, List.map_cons, List.nodup_cons] at hm
    simp only [mget]
    rcases List.mem_cons.1 h with h | h
    · simp_all
    · have : k' ≠ k := by
        rintro rfl
        exact hm.1 (List.mem_map.2 ⟨_, h, rfl⟩)
      simp [this, ih hm.2 h]

theorem mset_of_none {m : List (String × α)} {k : String} {v : α} (h : mget m k = none) :
    mset m k v = m ++ [(k, v)] := by
  induction m with
  | nil => rfl
  | cons e r ih =>
    obtain ⟨k', v'⟩ := e
    simp only [mget] at h
    simp only [mset]
    split at h
    · simp at h
    · next hk => simp [hk, ih h]

theorem mget_mset_self (m : List (String × α)) (k : String) (v : α) : mget (mset m k v) k = some v := by
  induction m with
  | nil => simp [mset, mget]
  | cons e r ih =>
    obtain ⟨k', v'⟩ := e
    simp only [mset]
    split
    · next h => simp [mget]
    · next h => simp [mget, h, ih]

theorem mget_mset_ne (m : List (String × α)) {k k' : String} (v : α) (h : k' ≠ k) :
    mget (mset m k v) k' = mget m k' := by
  induction m with
  | nil => simp [mset, mget, Ne.symm h]
  | cons e r ih =>
    obtain ⟨k2, v2⟩ := e
    simp only [mset]
    split
    · next h2 => subst h2; simp [mget, Ne.symm h]
    · next h2 => simp only [mget, ih]

theorem mget_mset (m : List (String × α)) (k k' : String) (v : α) :
    mget (mset m k v) k' = if k' = k then some v else mget m k' := by
  split
  · next h => subst h; exact mget_mset_self ..
  · next h => exact mget_mset_ne _ _ h

theorem mem_mkeys_mset (m : List (String × α)) (k k' : String) (v : α) :
    k' ∈ mkeys (mset m k v) ↔ k' = k ∨ k' ∈ mkeys m := by
  have h := @mget_none_iff α (mset m k v) k'
  have h2 := @mget_none_iff α m k'
  rw [mget_mset] at h
  by_cases e : k' = k
  · simp_all
  · simp only [e, if_false] at h
    simp only [e, false_or]
    constructor
    · intro hh; exact Classical.byContradiction fun hc => (h.1 (h2.2 hc)) hh
    · intro hh; exact Classical.byContradiction fun hc => (h2.1 (h.2 hc)) hh

theorem MapOK_mset {m : List (String × α)} (hm : MapOK m) (k : String) (v : α) : MapOK (mset m k v) := by
  induction m with
  | nil => simp [mset, MapOK, mkeys]
  | cons e r ih =>
    obtain ⟨k2, v2⟩ := e
    simp only [mset]
    have hr : MapOK r := by simp only [MapOK, mkeys, List.map_cons, List.nodup_cons] at hm; exact hm.2
    have hk : k2 ∉ mkeys r := by simp only [MapOK, mkeys, List.map_cons, List.nodup_cons] at hm; exact hm.1
    split
    · next h => subst h; exact hm
    · next h =>
      show (k2 :: mkeys (mset r k v)).Nodup
      refine List.nodup_cons.2 ⟨?_, ih hr⟩
      rw [mem_mkeys_mset]
      simp [h, hk]

theorem lookup_eq_mget (m : List (String × α)) (k : String) : m.lookup k = mget m k := by
  induction m with
  | nil => rfl
  | cons e r ih =>
    obtain ⟨k', v⟩ := e
    simp only [List.lookup, mget]
    by_cases h : k = k'
    · subst h; simp
    · have : (k == k') = false := by simpa using h
      simp [this, ih, Ne.symm h]

theorem mget_map_snd {β : Type} (f : String → α → β) (m : List (String × α)) (k : String) :
    mget (m.map (fun e => (e.1, f e.1 e.2))) k = (mget m k).map (f k) := by
  induction m with
  | nil => rfl
  | cons e r ih =>
    obtain ⟨k', v⟩ := e
    simp only [List.map_cons, mget]
    split
    · next h => subst h; simp
    · exact ih

end Spiff
