import Verif.Props.Values
import Verif.Props.Find
/-
C47: which value definitions are accepted, and which values are taken as integers.
-/
namespace Spiff
open Spec
variable {E : Type}

/-- `s` defines the value `v` for the name `k`: it has the form `k=v`, with a non-empty name, and no further `=`. -/
def Defines (s k v : List Char) : Prop := s = k ++ '=' :: v ∧ k ≠ [] ∧ '=' ∉ k ∧ '=' ∉ v

theorem splitCh_single {sep : Char} {s : List Char} : splitCh sep s = [s] ↔ sep ∉ s := by
  constructor
  · intro h hm
    obtain ⟨a, b, hab, hn⟩ : ∃ a b, s = a ++ sep :: b ∧ sep ∉ a := by
      obtain ⟨a, b, hab, hn⟩ := List.eq_append_cons_of_mem hm
      exact ⟨a, b, hab, hn⟩
    rw [hab, splitCh_sep hn] at h
    have := splitCh_ne_nil sep b
    simp_all
  · intro h
    have := splitCh_append h []
    simpa [splitCh, addHead] using this

theorem splitCh_two {sep : Char} {s k v : List Char} : splitCh sep s = [k, v] ↔ s = k ++ sep :: v ∧ sep ∉ k ∧ sep ∉ v := by
  constructor
  · intro h
    by_cases hm : sep ∈ s
    · obtain ⟨a, b, hab, hn⟩ := List.eq_append_cons_of_mem hm
      rw [hab, splitCh_sep hn] at h
      injection h with h1 h2
      subst h1
      have hv : sep ∉ b := by
        intro hb
        obtain ⟨c, d, hcd, hn'⟩ := List.eq_append_cons_of_mem hb
        rw [hcd, splitCh_sep hn'] at h2
        injection h2 with _ h3
        exact splitCh_ne_nil _ _ h3
      rw [splitCh_single.2 hv] at h2
      injection h2 with h2 _
      subst h2
      exact ⟨hab, hn, hv⟩
    · rw [splitCh_single.2 hm] at h
      injection h with _ h
      cases h
  · rintro ⟨rfl, hk, hv⟩
    rw [splitCh_sep hk, splitCh_single.2 hv]

theorem valueDef_iff (s k v : List Char) : valueDef s = some (k, v) ↔ Defines s k v := by
  unfold valueDef Defines
  constructor
  · intro h
    split at h
    · rename_i k' v' he
      obtain ⟨h1, h2, h3⟩ := splitCh_two.1 he
      split at h
      · cases h
      · rename_i hne
        simp only [Option.some.injEq, Prod.mk.injEq] at h
        obtain ⟨rfl, rfl⟩ := h
        exact ⟨h1, hne, h2, h3⟩
    · cases h
  · rintro ⟨h1, h0, h2, h3⟩
    rw [splitCh_two.2 ⟨h1, h2, h3⟩]
    simp [h0]

/-- **C47** (arguments): the definitions given on the command line are accepted iff each of them has the form `name=value` with
a non-empty name and a value without `=`. -/
theorem definitions_accepted (args : List (List Char)) :
    (createValues args).isSome ↔ ∀ s ∈ args, ∃ k v, Defines s k v := by
  rw [← Option.ne_none_iff_isSome, Ne, (createValues_spec args).1]
  simp only [not_exists, not_and]
  constructor
  · intro h s hs
    obtain ⟨⟨k, v⟩, he⟩ := Option.ne_none_iff_exists'.1 (h s hs)
    exact ⟨k, v, (valueDef_iff s k v).1 he⟩
  · intro h s hs he
    obtain ⟨k, v, hd⟩ := h s hs
    rw [(valueDef_iff s k v).2 hd] at he
    cases he

/-- **C47** (arguments): a name has the value of its last definition, and exactly the defined names have a value. -/
theorem last_definition_wins (args : List (List Char)) (r : List (String × List Char)) (h : createValues args = some r) (k v : List Char) :
    mget r (String.ofList k) = some v ↔
      ∃ a s b, args = a ++ s :: b ∧ Defines s k v ∧ ∀ t ∈ b, ∀ w, ¬ Defines t k w := by
  rw [(createValues_spec args).2 r h k]
  clear h r
  induction args using List.reverseRecOn with
  | nil => simp
  | append_singleton args s ih =>
    by_cases hd : ∃ w, Defines s k w
    · obtain ⟨w, hw⟩ := hd
      have he := (valueDef_iff s k w).2 hw
      simp only [List.filterMap_append, List.filter_append, List.filterMap_cons, he, List.filterMap_nil, List.filter_cons, decide_true, if_true,
        List.filter_nil, List.getLast?_append, List.getLast?_singleton, Option.some_or, Option.map_some, Option.some.injEq]
      constructor
      · rintro rfl
        exact ⟨args, s, [], by simp, hw, by simp⟩
      · rintro ⟨a, t, b, hab, ht, hb⟩
        rcases List.eq_nil_or_concat b with rfl | ⟨b', y, rfl⟩
        · obtain ⟨_, hst⟩ := List.append_inj' hab rfl
          simp only [List.cons.injEq, and_true] at hst
          subst hst
          have := (valueDef_iff s k v).2 ht
          rw [he] at this
          simpa using this
        · have hab' : args ++ [s] = (a ++ t :: b') ++ [y] := by rw [hab, List.append_assoc, List.cons_append, List.concat_eq_append]
          obtain ⟨_, hst⟩ := List.append_inj' hab' rfl
          simp only [List.cons.injEq, and_true] at hst
          subst hst
          exact absurd hw (hb s (by simp) w)
    · have hf : (List.filterMap valueDef (args ++ [s])).filter (fun d => decide (d.1 = k)) =
          (List.filterMap valueDef args).filter (fun d => decide (d.1 = k)) := by
        rw [List.filterMap_append, List.filter_append]
        cases hv : valueDef s with
        | none => simp [hv]
        | some d =>
          obtain ⟨k', v'⟩ := d
          have : k' ≠ k := by
            rintro rfl
            exact hd ⟨v', (valueDef_iff s k' v').1 hv⟩
          simp [hv, this]
      rw [hf, ih]
      constructor
      · rintro ⟨a, t, b, rfl, ht, hb⟩
        refine ⟨a, t, b ++ [s], by simp, ht, ?_⟩
        intro u hu w hw
        rcases List.mem_append.1 hu with hu | hu
        · exact hb u hu w hw
        · simp only [List.mem_singleton] at hu
          subst hu
          exact hd ⟨w, hw⟩
      · rintro ⟨a, t, b, hab, ht, hb⟩
        rcases List.eq_nil_or_concat b with rfl | ⟨b', y, rfl⟩
        · obtain ⟨_, hst⟩ := List.append_inj' hab rfl
          simp only [List.cons.injEq, and_true] at hst
          subst hst
          exact absurd ⟨v, ht⟩ hd
        · have hab' : args ++ [s] = (a ++ t :: b') ++ [y] := by rw [hab, List.append_assoc, List.cons_append, List.concat_eq_append]
          obtain ⟨h1, _⟩ := List.append_inj' hab' rfl
          exact ⟨a, t, b', h1, ht, fun u hu => hb u (by simp [hu])⟩

/-- `v` is an integer literal: a decimal number, optionally with a sign, in the range of 64 bit integers -/
def IsInteger (v : List Char) (i : Int) : Prop :=
  -(2^63) ≤ i ∧ i < 2^63 ∧ ∃ n : Nat, (Decimal v n ∧ i = n) ∨
    (∃ ds, Decimal ds n ∧ ((v = '-' :: ds ∧ i = -(n : Int)) ∨ (v = '+' :: ds ∧ i = n)))

theorem isDigits_head {c : Char} {ds : List Char} (h : isDigits (c :: ds) = true) : c ≠ '-' ∧ c ≠ '+' := by
  simp only [isDigits, List.all_cons, Bool.and_eq_true] at h
  have := (isDigitC c).1 (by rw [Bool.and_eq_true]; exact h.2.1)
  constructor <;> rintro rfl <;> revert this <;> decide

theorem parseInt_iff (s : String) (i : Int) : parseInt s = some i ↔ IsInteger s.toList i := by
  unfold parseInt IsInteger
  generalize s.toList = v
  have hfin : ∀ (o : Option Int), (match o with
      | some i => if -(2^63) ≤ i ∧ i < 2^63 then some i else none
      | none => none) = some i ↔ (-(2^63) ≤ i ∧ i < 2^63) ∧ o = some i := by
    intro o
    cases o with
    | none => simp
    | some j =>
      simp only
      split
      · rename_i h
        simp only [Option.some.injEq]
        constructor
        · rintro rfl; exact ⟨h, rfl⟩
        · exact fun h => h.2
      · rename_i h
        simp only [reduceCtorEq, Option.some.injEq, false_iff, not_and]
        rintro h' rfl
        exact h h'
  refine (hfin _).trans ?_
  rw [and_assoc]
  refine and_congr_right fun _ => and_congr_right fun _ => ?_
  have hif : ∀ (ds : List Char) (f : Nat → Int), (if isDigits ds = true then some (f (digitsVal ds)) else none) = some i ↔
      ∃ n, Decimal ds n ∧ i = f n := by
    intro ds f
    constructor
    · intro h
      split at h
      · rename_i hd
        exact ⟨digitsVal ds, (decimal_iff _ _).2 ⟨hd, rfl⟩, by simpa using h.symm⟩
      · cases h
    · rintro ⟨n, hn, rfl⟩
      obtain ⟨h1, h2⟩ := (decimal_iff _ _).1 hn
      simp [h1, h2]
  split
  · rename_i ds
    rw [hif ds (fun n => -(n : Int))]
    constructor
    · rintro ⟨n, hn, rfl⟩
      exact ⟨n, .inr ⟨ds, hn, .inl ⟨rfl, rfl⟩⟩⟩
    · rintro ⟨n, ⟨hn, _⟩ | ⟨ds', hn, ⟨he, hi⟩ | ⟨he, hi⟩⟩⟩
      · exact absurd rfl (isDigits_head ((decimal_iff _ _).1 hn).1).1
      · injection he with _ he
        subst he
        exact ⟨n, hn, hi⟩
      · injection he with he _
        exact absurd he (by decide)
  · rename_i ds
    rw [hif ds (fun n => (n : Int))]
    constructor
    · rintro ⟨n, hn, rfl⟩
      exact ⟨n, .inr ⟨ds, hn, .inr ⟨rfl, rfl⟩⟩⟩
    · rintro ⟨n, ⟨hn, _⟩ | ⟨ds', hn, ⟨he, hi⟩ | ⟨he, hi⟩⟩⟩
      · exact absurd rfl (isDigits_head ((decimal_iff _ _).1 hn).1).2
      · injection he with he _
        exact absurd he (by decide)
      · injection he with _ he
        subst he
        exact ⟨n, hn, hi⟩
  · rename_i h1 h2
    rw [hif v (fun n => (n : Int))]
    constructor
    · rintro ⟨n, hn, hi⟩
      exact ⟨n, .inl ⟨hn, hi⟩⟩
    · rintro ⟨n, ⟨hn, hi⟩ | ⟨ds', hn, ⟨he, hi⟩ | ⟨he, hi⟩⟩⟩
      · exact ⟨n, hn, hi⟩
      · exact absurd he (h1 ds')
      · exact absurd he (h2 ds')

/-- **C47** (values): integer literals are recognized, all other values are strings. -/
theorem value_recognized (v : List Char) :
    (∀ i, (valueNode v : Node E).val = .int i ↔ IsInteger v i) ∧
    ((¬ ∃ i, IsInteger v i) → (valueNode v : Node E).val = .str (String.ofList v)) := by
  have h := parseInt_iff (String.ofList v)
  simp only [String.toList_ofList] at h
  unfold valueNode
  constructor
  · intro i
    rw [← h i]
    split
    · rename_i j hj
      simp [Node.new, Node.val, hj]
    · rename_i hj
      simp [Node.new, Node.val, hj]
  · intro hn
    split
    · rename_i j hj
      exact absurd ⟨j, (h j).1 hj⟩ hn
    · rfl

/-- `x.y=-7` is a definition of an integer, the second definition of `x.y` below wins -/
example : Defines "x.y=-7".toList "x.y".toList "-7".toList ∧ IsInteger "-7".toList (-7) := by
  refine ⟨⟨by decide, by decide, by decide, by decide⟩, by decide, by decide, 7, .inr ⟨['7'], ?_, .inl ⟨by decide, by decide⟩⟩⟩
  exact Decimal.digit 7 (by decide)

example : createValues ["x.y=3".toList, "z=".toList, "x.y=-7".toList] = some [("x.y", "-7".toList), ("z", [])] := by decide +kernel

end Spiff
