import Verif.Model.ListFns
import Verif.Lemmas.Maps
/-
C34: `element`: the addressed element, or an error. dynaml/element.go
-/
namespace Spiff
variable {E : Type}

theorem elementAt_iff (l : List (Node E)) (i : Int) :
    elementAt l i ≠ .panic ∧ (elementAt l i = .err ↔ i < 0 ∨ (l.length : Int) ≤ i) ∧
    ∀ v, elementAt l i = .ok v ↔ ∃ k : Nat, (k : Int) = i ∧ ∃ n, l[k]? = some n ∧ v = n.val := by
  unfold elementAt
  by_cases h0 : i < 0
  · rw [if_pos h0]
    refine ⟨by simp, by simp [h0], fun v => ⟨by simp, ?_⟩⟩
    rintro ⟨k, rfl, -⟩
    omega
  · rw [if_neg h0]
    by_cases h1 : i ≥ l.length
    · rw [if_pos h1]
      refine ⟨by simp, by simp [h0, h1], fun v => ⟨by simp, ?_⟩⟩
      rintro ⟨k, rfl, n, hn, -⟩
      have := (List.getElem?_eq_some_iff.mp hn).1
      omega
    · rw [if_neg h1]
      have hlt : i.toNat < l.length := by omega
      rw [List.getElem?_eq_getElem hlt]
      refine ⟨by simp, by simp [h0]; omega, fun v => ⟨?_, ?_⟩⟩
      · intro h
        refine ⟨i.toNat, by omega, _, List.getElem?_eq_getElem hlt, ?_⟩
        simpa using h.symm
      · rintro ⟨k, hk, n, hn, rfl⟩
        have : i.toNat = k := by omega
        subst this
        rw [List.getElem?_eq_getElem hlt] at hn
        simp only [Option.some.injEq] at hn
        rw [hn]

/-- C34: `element(list, i)` yields the i-th element exactly for 0 ≤ i < length; otherwise it reports an error. -/
theorem element_list (l : List (Node E)) (i : Int) :
    funcElement [.list l, .int i] ≠ .panic ∧ (funcElement [.list l, .int i] = .err ↔ i < 0 ∨ (l.length : Int) ≤ i) ∧
    ∀ v, funcElement [.list l, .int i] = .ok v ↔ ∃ k : Nat, (k : Int) = i ∧ ∃ n, l[k]? = some n ∧ v = n.val :=
  elementAt_iff l i

/-- C34: a string index means the integer it denotes. -/
theorem element_list_string (l : List (Node E)) (s : String) :
    funcElement [.list l, .str s] = match parseInt s with
      | some i => funcElement [.list l, .int i]
      | none => .err := rfl

/-- C34: `element(map, key)` yields the field, exactly if there is one. -/
theorem element_map (m : List (String × Node E)) (k : String) :
    funcElement [.map m, .str k] ≠ .panic ∧ (funcElement [.map m, .str k] = .err ↔ ∀ n, (k, n) ∉ m) ∧
    (MapOK m → ∀ v, funcElement [.map m, .str k] = .ok v ↔ ∃ n, (k, n) ∈ m ∧ v = n.val) := by
  have e : funcElement [.map m, .str k] = match mget m k with
      | some n => .ok n.val
      | none => .err := rfl
  rw [e]
  cases h : mget m k with
  | none =>
    have hn := mget_none_iff.mp h
    refine ⟨by simp, ⟨fun _ n hm => hn ?_, fun _ => rfl⟩, fun _ v => ⟨by simp, ?_⟩⟩
    · exact List.mem_map.mpr ⟨(k, n), hm, rfl⟩
    · rintro ⟨n, hm, -⟩
      exact absurd (List.mem_map.mpr ⟨(k, n), hm, rfl⟩) hn
  | some n =>
    refine ⟨by simp, ⟨by simp, fun hh => absurd (mget_some_mem h) (hh n)⟩, fun ok v => ⟨?_, ?_⟩⟩
    · intro hv
      exact ⟨n, mget_some_mem h, by simpa using hv.symm⟩
    · rintro ⟨n', hm, rfl⟩
      have := mget_of_mem ok hm
      rw [h] at this
      simp only [Option.some.injEq] at this
      rw [this]

/-- The first argument decides: anything else is an error, never a crash. -/
theorem element_no_panic (args : List (Val E)) : funcElement args ≠ .panic := by
  unfold funcElement
  split
  · split
    · simp
    · split
      · exact (elementAt_iff _ _).1
      · split
        · exact (elementAt_iff _ _).1
        · simp
      · simp
    · split
      · split <;> simp
      · simp
    · simp
  · simp

example : funcElement (E := Unit) [.list [.mk (.int 7) "" {}, .mk (.int 8) "" {}], .int 1] = .ok (.int 8) := rfl
example : funcElement (E := Unit) [.list [.mk (.int 7) "" {}, .mk (.int 8) "" {}], .int 2] = .err := rfl
example : funcElement (E := Unit) [.map [("a", .mk (.int 7) "" {})], .str "a"] = .ok (.int 7) := rfl

end Spiff
