import Verif.Props.Closures2
import Mathlib.Data.List.Nodup
/-
C81: what the parameters of a function are bound to by a call.
-/
namespace Spiff
open Spec

/-- the value of the parameter `p` at position `i`: given by position, by name, by default; a variadic parameter is the list of the
arguments from its position on, if there are any -/
def ParamValue (ps : List String) (va : Bool) (ds : List (String × Lit)) (nm : List (String × CVal)) (args : List CVal) (i : Nat) (p : String) (v : CVal) : Prop :=
  (i < args.length ∧ ((va = true ∧ i + 1 = ps.length ∧ v = .list (args.drop i)) ∨ (¬(va = true ∧ i + 1 = ps.length) ∧ args[i]? = some v))) ∨
  (args.length ≤ i ∧ (mget nm p = some v ∨ (mget nm p = none ∧ ((∃ d, mget ds p = some d ∧ v = .data d) ∨
    (mget ds p = none ∧ va = true ∧ i + 1 = ps.length ∧ v = .list [])))))

theorem mget_setAllC_zip : ∀ (ps : List String) (vs : List CVal) (m : Locals) (i : Nat) (p : String) (v : CVal), ps.Nodup → ps[i]? = some p → vs[i]? = some v →
    mget (setAllC (ps.zip vs) m) p = some v
  | [], _, _, i, p, _, _, hp, _ => by simp at hp
  | _ :: _, [], _, i, _, v, _, _, hv => by simp at hv
  | q :: ps, w :: vs, m, 0, p, v, hnd, hp, hv => by
    simp at hp hv
    subst hp hv
    have hq : q ∉ (ps.zip vs).map (·.1) := by
      intro h
      obtain ⟨e, he, rfl⟩ := List.mem_map.1 h
      exact (List.nodup_cons.1 hnd).1 (List.of_mem_zip he).1
    simp only [List.zip_cons_cons]
    show mget (setAllC (ps.zip vs) (mset m q w)) q = some w
    rw [setAllC_not hq, mget_mset_self]
  | q :: ps, w :: vs, m, i + 1, p, v, hnd, hp, hv => by
    simp only [List.zip_cons_cons]
    exact mget_setAllC_zip ps vs (mset m q w) i p v (List.nodup_cons.1 hnd).2 (by simpa using hp) (by simpa using hv)

theorem fillC_keep {va : Bool} {ds : List (String × Lit)} {nm : List (String × CVal)} : ∀ (r : List String) (inp out : Locals), fillC va ds nm r inp = some out →
    ∀ x, x ∉ r → mget out x = mget inp x
  | [], inp, out, h, x, _ => by simp only [fillC] at h; cases h; rfl
  | p :: r, inp, out, h, x, hx => by
    have hx1 : p ≠ x := by rintro rfl; exact hx (by simp)
    have hx2 : x ∉ r := fun h => hx (by simp [h])
    simp only [fillC] at h
    split at h
    · rw [fillC_keep r _ _ h x hx2, mget_mset_ne _ _ hx1.symm]
    · split at h
      · rw [fillC_keep r _ _ h x hx2, mget_mset_ne _ _ hx1.symm]
      · split at h
        · rw [fillC_keep r _ _ h x hx2, mget_mset_ne _ _ hx1.symm]
        · cases h

theorem fillC_get {va : Bool} {ds : List (String × Lit)} {nm : List (String × CVal)} : ∀ (r : List String) (inp out : Locals), r.Nodup → fillC va ds nm r inp = some out →
    ∀ (i : Nat) (p : String), r[i]? = some p → ∃ v, mget out p = some v ∧ (mget nm p = some v ∨ (mget nm p = none ∧ ((∃ d, mget ds p = some d ∧ v = .data d) ∨
      (mget ds p = none ∧ va = true ∧ i + 1 = r.length ∧ v = .list []))))
  | [], _, _, _, _, i, p, hp => by simp at hp
  | q :: r, inp, out, hnd, h, 0, p, hp => by
    simp at hp; subst hp
    have hq := (List.nodup_cons.1 hnd).1
    simp only [fillC] at h
    split at h
    · rename_i v hv; exact ⟨v, by rw [fillC_keep r _ _ h q hq, mget_mset_self], Or.inl hv⟩
    · rename_i hv
      split at h
      · rename_i d hd; exact ⟨_, by rw [fillC_keep r _ _ h q hq, mget_mset_self], Or.inr ⟨hv, Or.inl ⟨d, hd, rfl⟩⟩⟩
      · rename_i hd
        split at h
        · rename_i hva
          exact ⟨_, by rw [fillC_keep r _ _ h q hq, mget_mset_self], Or.inr ⟨hv, Or.inr ⟨hd, hva.1, by rw [hva.2]; rfl, rfl⟩⟩⟩
        · cases h
  | q :: r, inp, out, hnd, h, i + 1, p, hp => by
    have hnd' := (List.nodup_cons.1 hnd).2
    have hp' : r[i]? = some p := by simpa using hp
    have hgo : ∀ inp', fillC va ds nm r inp' = some out → _ := fun inp' h' => fillC_get r inp' out hnd' h' i p hp'
    simp only [fillC] at h
    have : ∃ inp', fillC va ds nm r inp' = some out := by
      split at h
      · exact ⟨_, h⟩
      · split at h
        · exact ⟨_, h⟩
        · split at h
          · exact ⟨_, h⟩
          · cases h
    obtain ⟨inp', h'⟩ := this
    obtain ⟨v, h1, h2⟩ := hgo inp' h'
    refine ⟨v, h1, ?_⟩
    simpa using h2

/-- C81: the body of a function runs with every parameter bound to its value. Named arguments belong to parameters that are not given by
position; a function without variadic parameter gets at most as many arguments as it has parameters. -/
theorem function_call_binds {ps : List String} (hnd : ps.Nodup) {va : Bool} (hva : va = true → ps ≠ []) {ds : List (String × Lit)} {st : Locals} {home : Loc} {body : LEx} {c a : Bool}
    {nm : List (String × CVal)} {args : List CVal} {inp : Locals} (h : callClo ps va ds st home body c a nm args = .run inp) :
    (∀ i p, ps[i]? = some p → ∃ v, mget inp p = some v ∧ ParamValue ps va ds nm args i p v) ∧
    (∀ e ∈ nm, ∃ i, ps[i]? = some e.1 ∧ args.length ≤ i ∧ (va = true → i + 1 = ps.length → ∃ l, e.2 = .list l)) ∧
    (va = false → args.length ≤ ps.length) ∧
    (∀ x, x ∉ ps → mget inp x = mget st x) := by
  simp only [callClo] at h
  split at h
  · cases h
  · rename_i hlen
    split at h
    · cases h
    · rename_i hfit
      split at h
      · cases h
      · rename_i hcur
        split at h
        · cases h
        · rename_i inp' hfill
          cases h
          have hfit : nm.all (namedFits ps va (packVals ps.length va args).length) = true := by simpa using hfit
          -- the number of values given by position
          have hk : (packVals ps.length va args).length = if va = true ∧ ps.length - 1 < args.length then ps.length else args.length := by
            unfold packVals
            by_cases hv : va = true ∧ ps.length - 1 < args.length
            · rw [if_pos (by simp [hv.1, hv.2]), if_pos hv]
              have : 0 < ps.length := List.length_pos_iff.2 (hva hv.1)
              simp; omega
            · rw [if_neg (by simpa using hv), if_neg hv]
          have hat : ∀ i, i < (packVals ps.length va args).length → i < ps.length → ∃ v, (packVals ps.length va args)[i]? = some v ∧
              (i < args.length ∧ ((va = true ∧ i + 1 = ps.length ∧ v = .list (args.drop i)) ∨ (¬(va = true ∧ i + 1 = ps.length) ∧ args[i]? = some v))) := by
            intro i hi hip
            by_cases hv : va = true ∧ ps.length - 1 < args.length
            · have e : packVals ps.length va args = args.take (ps.length - 1) ++ [.list (args.drop (ps.length - 1))] := by
                unfold packVals; rw [if_pos (by simp [hv.1, hv.2])]
              rw [e]
              have hl : (args.take (ps.length - 1)).length = ps.length - 1 := by simp; omega
              by_cases hlast : i + 1 = ps.length
              · refine ⟨.list (args.drop i), ?_, by omega, Or.inl ⟨hv.1, hlast, rfl⟩⟩
                rw [List.getElem?_append_right (by omega), hl, show i - (ps.length - 1) = 0 by omega, show ps.length - 1 = i by omega]; rfl
              · obtain ⟨v, hv'⟩ : ∃ v, args[i]? = some v := ⟨args[i]'(by omega), List.getElem?_eq_getElem _⟩
                refine ⟨v, ?_, by omega, Or.inr ⟨fun hx => hlast hx.2, hv'⟩⟩
                rw [List.getElem?_append_left (by omega), List.getElem?_take, if_pos (by omega), hv']
            · have e : packVals ps.length va args = args := by unfold packVals; rw [if_neg (by simpa using hv)]
              rw [e] at hi ⊢
              refine ⟨args[i], List.getElem?_eq_getElem hi, hi, Or.inr ⟨?_, List.getElem?_eq_getElem hi⟩⟩
              rintro ⟨h1, h2⟩
              exact hv ⟨h1, by omega⟩
          generalize packVals ps.length va args = vals at *
          refine ⟨?_, ?_, ?_, ?_⟩
          · intro i p hp
            have hip : i < ps.length := by
              rcases Nat.lt_or_ge i ps.length with h | h
              · exact h
              · rw [List.getElem?_eq_none h] at hp; cases hp
            by_cases hi : i < vals.length
            · obtain ⟨v, hv, hpv⟩ := hat i hi hip
              refine ⟨v, ?_, Or.inl hpv⟩
              have hnot : p ∉ ps.drop vals.length := by
                intro hm
                obtain ⟨j, hj⟩ := List.mem_iff_getElem?.1 hm
                rw [List.getElem?_drop] at hj
                have hj' : vals.length + j < ps.length := by
                  rcases Nat.lt_or_ge (vals.length + j) ps.length with h | h
                  · exact h
                  · rw [List.getElem?_eq_none h] at hj; cases hj
                have := (List.Nodup.getElem_inj_iff hnd (hi := hip) (hj := hj')).1 (by
                  rw [List.getElem?_eq_getElem hip] at hp
                  rw [List.getElem?_eq_getElem hj'] at hj
                  rw [Option.some.inj hp, Option.some.inj hj])
                omega
              rw [fillC_keep _ _ _ hfill p hnot]
              exact mget_setAllC_zip ps vals _ i p v hnd hp hv
            · have hd : (ps.drop vals.length)[i - vals.length]? = some p := by
                rw [List.getElem?_drop, show vals.length + (i - vals.length) = i by omega]; exact hp
              obtain ⟨v, h1, h2⟩ := fillC_get _ _ _ (hnd.sublist (List.drop_sublist _ _)) hfill _ _ hd
              have hal : args.length ≤ i := by split at hk <;> omega
              refine ⟨v, h1, Or.inr ⟨hal, ?_⟩⟩
              rcases h2 with h2 | ⟨h2, h3 | ⟨h3, h4, h5, h6⟩⟩
              · exact Or.inl h2
              · exact Or.inr ⟨h2, Or.inl h3⟩
              · refine Or.inr ⟨h2, Or.inr ⟨h3, h4, ?_, h6⟩⟩
                rw [List.length_drop] at h5; omega
          · intro e he
            have := List.all_eq_true.1 hfit e he
            unfold namedFits at this
            split at this
            · cases this
            · rename_i i hidx
              simp only [Bool.and_eq_true, Bool.not_eq_true', decide_eq_false_iff_not, Bool.and_eq_false_iff] at this
              rw [List.findIdx?_eq_some_iff_getElem] at hidx
              obtain ⟨hil, hpi, _⟩ := hidx
              refine ⟨i, by rw [List.getElem?_eq_getElem hil]; simpa using hpi, by split at hk <;> omega, ?_⟩
              intro hv hlast
              rcases this.2 with (h | h) | h
              · rw [hv] at h; cases h
              · omega
              · cases hv : e.2 with
                | list l => exact ⟨l, rfl⟩
                | _ => rw [hv] at h; simp [isListC] at h
          · intro hv
            rw [if_neg (by rw [hv]; simp)] at hk
            omega
          · intro x hx
            rw [fillC_keep _ _ _ hfill x (fun hm => hx (List.mem_of_mem_drop hm))]
            rw [setAllC_not (by
              intro hm
              obtain ⟨e, he, rfl⟩ := List.mem_map.1 hm
              exact hx (List.of_mem_zip he).1)]
            rw [setAllC_not (by
              intro hm
              obtain ⟨e, he, rfl⟩ := List.mem_map.1 hm
              have := List.all_eq_true.1 hfit e he
              unfold namedFits at this
              split at this
              · cases this
              · rename_i i hidx
                rw [List.findIdx?_eq_some_iff_getElem] at hidx
                obtain ⟨hil, hpi, _⟩ := hidx
                have : ps[i] = e.1 := by simpa using hpi
                exact hx (this ▸ List.getElem_mem hil))]

/-- a call with two positional arguments, a named one and a default -/
example : ∃ inp, callClo ["a", "b", "c"] false [("c", .int 5)] [] ([] : List String) (.lit (.int 0)) false false [("b", .data (.int 2))] [.data (.int 1)] = .run inp ∧
    (mget inp "a").isSome = true := ⟨_, rfl, rfl⟩

end Spiff
