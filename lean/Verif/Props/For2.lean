import Verif.Props.For
import Verif.Props.Values2
/-
C43: the definition of the variables of a for control.
-/
namespace Spiff
open Spec
variable {E : Type}

/-- Specification: a name contains a letter, a digit or an underscore (the code means that it consists of them, but does not check that). -/
def ValidName (s : String) : Prop :=
  ∃ c ∈ s.toList, ('a' ≤ c ∧ c ≤ 'z') ∨ ('A' ≤ c ∧ c ≤ 'Z') ∨ ('0' ≤ c ∧ c ≤ '9') ∨ c = '_'

theorem checkName_iff (s : String) : checkName s = true ↔ ValidName s := by
  simp [checkName, ValidName, or_assoc]

/-- Specification: `it` is the variable with this name, which runs over the items. If no name for the index is given, it is
`index-` followed by the name of the variable. -/
def IsVar (index name : String) (items : Option (List (Val E × Node E))) (it : Iter E) : Prop :=
  ValidName name ∧ it.name = name ∧ it.items = items ∧
    ((index = "" ∧ it.index = "index-" ++ name) ∨ (index ≠ "" ∧ ValidName index ∧ it.index = index))

theorem controlIteration_iff (name index : String) (items : Option (List (Val E × Node E))) (it : Iter E) :
    controlIteration name index items = .ok it ↔ IsVar index name items it := by
  obtain ⟨n, i, its⟩ := it
  unfold controlIteration IsVar
  by_cases h1 : checkName name = true
  · have h1' := (checkName_iff name).1 h1
    by_cases h2 : index = ""
    · simp only [h1, Bool.not_true, Bool.false_eq_true, if_false, h2, if_true, Except.ok.injEq, Iter.mk.injEq, h1', true_and, not_true, false_and, or_false,
        ne_eq]
      constructor
      · rintro ⟨rfl, rfl, rfl⟩; exact ⟨rfl, rfl, rfl⟩
      · rintro ⟨rfl, rfl, rfl⟩; exact ⟨rfl, rfl, rfl⟩
    · by_cases h3 : checkName index = true
      · have h3' := (checkName_iff index).1 h3
        simp only [h1, Bool.not_true, Bool.false_eq_true, if_false, h2, h3, if_true, Except.ok.injEq, Iter.mk.injEq, h1', h3', true_and, false_and, false_or,
          ne_eq, not_false_eq_true]
        constructor
        · rintro ⟨rfl, rfl, rfl⟩; exact ⟨rfl, rfl, rfl⟩
        · rintro ⟨rfl, rfl, rfl⟩; exact ⟨rfl, rfl, rfl⟩
      · have h3' := mt (checkName_iff index).2 h3
        simp [h1, h2, h3, h3']
  · have h1' := mt (checkName_iff name).2 h1
    simp [h1, h1']

/-- Specification: the key of a variable is its name, or the names of index and variable, separated by a comma. -/
def KeySpec (k index name : String) : Prop :=
  (',' ∉ k.toList ∧ index = "" ∧ name = String.ofList (trimSpace k.toList)) ∨
  ∃ i n : List Char, k.toList = i ++ ',' :: n ∧ ',' ∉ i ∧ ',' ∉ n ∧ index = String.ofList (trimSpace i) ∧ name = String.ofList (trimSpace n)

theorem varSpec_iff (k index name : String) : varSpec k = some (index, name) ↔ KeySpec k index name := by
  constructor
  · intro h
    unfold varSpec at h
    split at h
    · rename_i n hn
      have hk : ',' ∉ k.toList := by
        intro hm
        obtain ⟨a, b, hab, ha⟩ := List.eq_append_cons_of_mem hm
        rw [hab, splitCh_sep ha] at hn
        injection hn with _ hn
        exact splitCh_ne_nil _ _ hn
      have := splitCh_single.2 hk
      rw [this] at hn
      simp only [List.cons.injEq, and_true] at hn
      subst hn
      simp only [Option.some.injEq, Prod.mk.injEq] at h
      exact .inl ⟨hk, h.1.symm, h.2.symm⟩
    · rename_i i n hn
      obtain ⟨h1, h2, h3⟩ := splitCh_two.1 hn
      simp only [Option.some.injEq, Prod.mk.injEq] at h
      exact .inr ⟨i, n, h1, h2, h3, h.1.symm, h.2.symm⟩
    · cases h
  · rintro (⟨h1, rfl, rfl⟩ | ⟨i, n, h1, h2, h3, rfl, rfl⟩)
    · exact (for_variable_key k).1 h1
    · exact (for_variable_key k).2.1 i n h1 h2 h3

/-- **C43** (variables given as map): exactly the entries with a valid key and a range are accepted; the key determines the names of
variable and index. -/
theorem for_map_variable (k : String) (v : Node E) (it : Iter E) :
    mapVar k v = .ok it ↔ ∃ index name items, KeySpec k index name ∧ controlIterator v = .ok items ∧ IsVar index name items it := by
  unfold mapVar
  constructor
  · intro h
    cases hs : varSpec k with
    | none => rw [hs] at h; cases h
    | some p =>
      obtain ⟨index, name⟩ := p
      rw [hs] at h
      simp only at h
      cases hc : controlIterator v with
      | error m => rw [hc] at h; cases h
      | ok items =>
        rw [hc] at h
        exact ⟨index, name, items, (varSpec_iff _ _ _).1 hs, rfl, (controlIteration_iff _ _ _ _).1 h⟩
  · rintro ⟨index, name, items, hs, hc, hv⟩
    rw [(varSpec_iff _ _ _).2 hs]
    simp only [hc]
    exact (controlIteration_iff _ _ _ _).2 hv

theorem entryShape_iff (spec : List (String × Node E)) (hok : MapOK spec) (index : String)
    (hn : (mget spec "name").isSome) (hv : (mget spec "values").isSome) (hi : index ≠ "" → (mget spec "index").isSome) :
    entryShape spec index = true ↔ ∀ e ∈ spec, e.1 = "name" ∨ e.1 = "values" ∨ e.1 = "index" := by
  have hmem : ∀ k, (mget spec k).isSome → k ∈ spec.map Prod.fst := by
    intro k hk
    by_contra hne
    rw [mget_none_iff.2 hne] at hk
    cases hk
  have hnd : (spec.map Prod.fst).Nodup := hok
  have hsub2 : ["name", "values"].Subperm (spec.map Prod.fst) := by
    refine List.subperm_of_subset (by decide) ?_
    intro x hx
    simp only [List.mem_cons, List.not_mem_nil, or_false] at hx
    rcases hx with rfl | rfl
    · exact hmem _ hn
    · exact hmem _ hv
  have hlen2 : 2 ≤ spec.length := by simpa using hsub2.length_le
  unfold entryShape
  constructor
  · intro h e he
    simp only [Bool.and_eq_true, Bool.not_eq_true', Bool.or_eq_false_iff, decide_eq_false_iff_not, Bool.and_eq_false_iff] at h
    have hek : e.1 ∈ spec.map Prod.fst := List.mem_map_of_mem (f := Prod.fst) he
    by_cases h3 : spec.length = 3
    · by_cases hidx : index = ""
      · have h4 : spec.any (fun e => e.1 ≠ "name" && e.1 ≠ "values" && e.1 ≠ "index") = false := by
          rcases h.2 with (h2 | h2) | h2
          · exact absurd h3 h2
          · exact absurd hidx h2
          · exact h2
        have h5 := (List.any_eq_false.1 h4) e he
        simp only [ne_eq, decide_not, Bool.and_eq_true, Bool.not_eq_true', decide_eq_false_iff_not, not_and, not_not] at h5
        by_cases ha : e.1 = "name"
        · exact .inl ha
        · by_cases hb : e.1 = "values"
          · exact .inr (.inl hb)
          · exact .inr (.inr (h5 ⟨ha, hb⟩))
      · have hsub3 : ["name", "values", "index"].Subperm (spec.map Prod.fst) := by
          refine List.subperm_of_subset (by decide) ?_
          intro x hx
          simp only [List.mem_cons, List.not_mem_nil, or_false] at hx
          rcases hx with rfl | rfl | rfl
          · exact hmem _ hn
          · exact hmem _ hv
          · exact hmem _ (hi hidx)
        have hp := hsub3.perm_of_length_le (by simp [h3])
        have := hp.mem_iff.2 hek
        simpa using this
    · have hp := hsub2.perm_of_length_le (by simp only [List.length_map, List.length_cons, List.length_nil]; omega)
      have := hp.mem_iff.2 hek
      simp only [List.mem_cons, List.not_mem_nil, or_false] at this
      rcases this with h | h
      · exact .inl h
      · exact .inr (.inl h)
  · intro h
    have hsub : (spec.map Prod.fst).Subperm ["name", "values", "index"] := by
      refine List.subperm_of_subset hnd ?_
      intro x hx
      obtain ⟨e, he, rfl⟩ := List.mem_map.1 hx
      simpa using h e he
    have hlen3 : spec.length ≤ 3 := by simpa using hsub.length_le
    have hany : spec.any (fun e => e.1 ≠ "name" && e.1 ≠ "values" && e.1 ≠ "index") = false := by
      rw [List.any_eq_false]
      intro e he
      rcases h e he with h | h | h <;> simp [h]
    rw [hany]
    simp only [Bool.and_false, Bool.not_false, Bool.and_true, Bool.not_eq_true', Bool.or_eq_false_iff, decide_eq_false_iff_not]
    omega

/-- Specification: the name for the index in a list entry: the empty one, if there is no index field -/
def IndexSpec (spec : List (String × Node E)) (index : String) : Prop :=
  (mget spec "index" = none ∧ index = "") ∨ ∃ n, mget spec "index" = some n ∧ n.val = .str index

/-- **C43** (variables given as list): exactly the maps with the fields name, values and optionally index, and no others, are accepted. -/
theorem for_list_variable (v : Node E) (it : Iter E) (hok : ∀ spec, v.val = .map spec → MapOK spec) :
    listVar v = .ok it ↔ ∃ spec n r name index items, v.val = .map spec ∧ mget spec "name" = some n ∧ n.val = .str name ∧
      mget spec "values" = some r ∧ (∀ e ∈ spec, e.1 = "name" ∨ e.1 = "values" ∨ e.1 = "index") ∧
      IndexSpec spec index ∧ controlIterator r = .ok items ∧ IsVar index name items it := by
  have hix : ∀ (spec : List (String × Node E)) index, entryIndex spec = some index ↔ IndexSpec spec index := by
    intro spec index
    unfold entryIndex IndexSpec
    cases mget spec "index" with
    | none => simp [eq_comm]
    | some n =>
      simp only [reduceCtorEq, false_and, Option.some.injEq, exists_eq_left', false_or]
      cases hn : n.val <;> simp
  have hsome : ∀ (spec : List (String × Node E)) index, IndexSpec spec index → index ≠ "" → (mget spec "index").isSome := by
    rintro spec index (⟨_, h⟩ | ⟨n, h, _⟩) hne
    · exact absurd h hne
    · rw [h]; rfl
  unfold listVar
  constructor
  · intro h
    split at h
    · rename_i spec hspec
      cases hn : mget spec "name" with
      | none => rw [hn] at h; cases h
      | some n =>
        rw [hn] at h
        simp only at h
        cases hi : entryIndex spec with
        | none => rw [hi] at h; cases h
        | some index =>
          rw [hi] at h
          simp only [entryVar] at h
          cases hr : mget spec "values" with
          | none => rw [hr] at h; cases h
          | some r =>
            rw [hr] at h
            simp only at h
            cases hc : controlIterator r with
            | error m => rw [hc] at h; cases h
            | ok items =>
              rw [hc] at h
              simp only at h
              split at h
              · rename_i hs
                have hv := (controlIteration_iff _ _ _ _).1 h
                have hindex := (hix _ _).1 hi
                have hshape := (entryShape_iff spec (hok spec hspec) index (by rw [hn]; rfl) (by rw [hr]; rfl) (hsome _ _ hindex)).1 hs
                have hname : n.val = .str (strOr n) := by
                  unfold strOr
                  cases hnv : n.val with
                  | str s => rfl
                  | _ =>
                    obtain ⟨⟨c, hc, _⟩, _⟩ := hv
                    simp [strOr, hnv] at hc
                exact ⟨spec, n, r, strOr n, index, items, hspec, hn, hname, hr, hshape, hindex, hc, hv⟩
              · cases h
    · cases h
  · rintro ⟨spec, n, r, name, index, items, hspec, hn, hname, hr, hshape, hindex, hc, hv⟩
    rw [hspec]
    simp only [hn, (hix _ _).2 hindex, entryVar, hr, hc]
    have hs := (entryShape_iff spec (hok spec hspec) index (by rw [hn]; rfl) (by rw [hr]; rfl) (hsome _ _ hindex)).2 hshape
    rw [hs]
    simp only [if_true]
    have hstr : strOr n = name := by simp [strOr, hname]
    rw [hstr]
    exact (controlIteration_iff _ _ _ _).2 hv

/-- `{" i , x": [7]}` defines `x` with index `i`; `{name: "x", values: [7]}` defines `x` with index `index-x` -/
example : ∃ it : Iter Unit, mapVar " i , x" (Node.new (.list [Node.new (.int 7) ""]) "") = .ok it ∧ it.name = "x" ∧ it.index = "i" := by
  refine ⟨⟨"x", "i", some [(.int 0, Node.new (.int 7) "")]⟩, ?_, rfl, rfl⟩
  rw [for_map_variable]
  refine ⟨"i", "x", _, .inr ⟨" i ".toList, " x".toList, by decide +kernel, by decide, by decide, by decide +kernel, by decide +kernel⟩, rfl, ?_⟩
  exact ⟨⟨'x', by decide, by decide⟩, rfl, rfl, .inr ⟨by decide, ⟨'i', by decide, by decide⟩, rfl⟩⟩

end Spiff
