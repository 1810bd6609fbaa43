import Verif.Spec.Mapping
import Verif.Spec.MapFns
import Verif.Props.MapFns
import Mathlib.Data.List.Nodup
/-
C39: map, select, filter and sum.
-/
namespace Spiff
open Spec
variable {E : Type}

/-! ### the entries -/

theorem indexed_get (l : List (Node E)) (i : Nat) : (indexedEntries l)[i]? = (l[i]?).map (fun n => (.idx i, n)) := by
  unfold indexedEntries
  rw [List.getElem?_map, List.getElem?_zipIdx]
  cases l[i]? <;> simp

theorem visit_list {l : List (Node E)} {es : List (EKey × Node E)} : Visit (.list l) es ↔ es = indexedEntries l := by
  constructor
  · intro h
    cases h with
    | list h1 h2 =>
      apply List.ext_getElem?
      intro i
      rw [indexed_get]
      cases hl : l[i]? with
      | none => rw [Option.map_none, List.getElem?_eq_none_iff, h1]; exact List.getElem?_eq_none_iff.1 hl
      | some n => exact h2 i n hl
  · rintro rfl
    refine .list (by simp [indexedEntries]) fun i n h => ?_
    rw [indexed_get, h]; rfl

theorem sorted_strict {l : List String} (h : l.Pairwise (· ≤ ·)) (hn : l.Nodup) : l.Pairwise (· < ·) := by
  refine (List.pairwise_and_iff.2 ⟨h, hn⟩).imp ?_
  rintro a b ⟨h1, h2⟩
  by_cases h3 : a < b
  · exact h3
  · exact absurd (String.le_antisymm h1 (String.not_lt.1 h3)) h2

theorem filterMap_keys {m : List (String × Node E)} : ∀ (ks : List String), (∀ k ∈ ks, k ∈ mkeys m) →
    ∃ sorted : List (String × Node E), sorted.map (·.1) = ks ∧ (∀ e ∈ sorted, e ∈ m) ∧
      ks.filterMap (fun k => (mget m k).map (fun n => (EKey.key k, n))) = sorted.map (fun e => (EKey.key e.1, e.2)) := by
  intro ks
  induction ks with
  | nil => intro _; exact ⟨[], rfl, by simp, rfl⟩
  | cons k r ih =>
    intro h
    obtain ⟨s, h1, h2, h3⟩ := ih (fun x hx => h x (List.mem_cons_of_mem _ hx))
    cases hk : mget m k with
    | none => exact absurd (h k (List.mem_cons_self ..)) (mget_none_iff.1 hk)
    | some n =>
      refine ⟨(k, n) :: s, by simp [h1], ?_, ?_⟩
      · intro e he
        rcases List.mem_cons.1 he with rfl | he
        · exact mget_some_mem hk
        · exact h2 e he
      · rw [List.filterMap_cons]; simp only [hk, Option.map_some, h3, List.map_cons]

theorem visit_map {m : List (String × Node E)} (hm : MapOK m) {es : List (EKey × Node E)} : Visit (.map m) es ↔ es = mapEntriesSorted m := by
  have hp := sortStr_perm (mkeys m)
  obtain ⟨s, h1, h2, h3⟩ := filterMap_keys (m := m) (sortedKeys m) (fun k hk => hp.mem_iff.1 hk)
  have hsn : (sortedKeys m).Nodup := hp.nodup_iff.2 hm
  have hs : s.Perm m := by
    have hsn' : (s.map (·.1)).Nodup := h1 ▸ hsn
    have hmn : (m.map (·.1)).Nodup := hm
    rw [List.perm_ext_iff_of_nodup (List.Nodup.of_map _ hsn') (List.Nodup.of_map _ hmn)]
    intro e
    refine ⟨h2 e, fun he => ?_⟩
    have : e.1 ∈ s.map (·.1) := by rw [h1]; exact hp.mem_iff.2 (List.mem_map_of_mem he)
    obtain ⟨e', he', hk⟩ := List.mem_map.1 this
    have w1 := mget_of_mem hm (h2 e' he')
    have w2 := mget_of_mem hm (show (e.1, e.2) ∈ m from he)
    rw [show e'.1 = e.1 from hk, w2] at w1
    simp only [Option.some.injEq] at w1
    have : e' = e := Prod.ext hk w1.symm
    exact this ▸ he'
  have hst : (s.map (·.1)).Pairwise (· < ·) := by rw [h1]; exact sorted_strict (sortStr_sorted _) hsn
  constructor
  · intro h
    generalize hv : Val.map m = v at h
    cases h with
    | list => cases hv
    | map q1 q2 =>
      cases hv
      rename_i s'
      have : s' = s := by
        have hpp : s'.Perm s := q1.trans hs.symm
        have e1 : s'.Pairwise (fun a b => a.1 < b.1) := List.pairwise_map.1 q2
        have e2 : s.Pairwise (fun a b => a.1 < b.1) := List.pairwise_map.1 hst
        refine List.Perm.eq_of_pairwise (le := fun a b => a.1 < b.1) ?_ e1 e2 hpp
        intro a b _ _ w1 w2
        exact absurd w1 (String.lt_asymm w2)
      subst this
      exact h3.symm
  · rintro rfl
    show Visit (.map m) (mapEntriesSorted m)
    unfold mapEntriesSorted
    rw [h3]
    exact .map hs hst

/-! ### one entry -/

theorem mapInput_iff {np : Nat} {key : EKey} {n : Node E} {args : List (Val E)} : mapInput np key n = some args ↔ Args key n np args := by
  unfold mapInput
  match np with
  | 0 => simp only [if_true, reduceCtorEq, false_iff]; intro h; cases h
  | 1 =>
    simp only [Nat.succ_ne_zero, if_false, Option.some.injEq]
    constructor
    · rintro rfl; exact .one
    · intro h; cases h; rfl
  | k + 2 =>
    have : (((List.replicate (k + 2) (Val.nil : Val E)).set 0 key.val).set (k + 2 - 1) n.val) = key.val :: (List.replicate k .nil ++ [n.val]) := by
      rw [List.replicate_succ, List.set_cons_zero, show k + 2 - 1 = k + 1 from rfl, List.set_cons_succ, List.replicate_succ']
      congr 1
      rw [List.set_append_right _ _ (by simp)]
      simp
    rw [this, if_neg (by omega)]
    simp only [Option.some.injEq]
    constructor
    · rintro rfl; exact .more
    · intro h; cases h; rfl

theorem isExprVal_iff {v : Val E} : isExprVal v = true ↔ ∃ x, v = .expr x := by cases v <;> simp [isExprVal]
theorem isNilVal_iff {v : Val E} : isNilVal v = true ↔ v = .nil := by cases v <;> simp [isNilVal]

theorem used_iff {v : Val E} {u : Bool} : (u || isNilVal v) = false ↔ Used v u := by
  unfold Used
  rw [Bool.or_eq_false_iff]
  constructor
  · rintro ⟨h1, h2⟩
    exact ⟨fun h => (by rw [isNilVal_iff.2 h] at h2; cases h2), h1⟩
  · rintro ⟨h1, h2⟩
    refine ⟨h2, ?_⟩
    cases h : isNilVal v with
    | false => rfl
    | true => exact absurd (isNilVal_iff.1 h) h1

theorem addEntry_some {src : String} {k : MapKind} {e : EKey × Node E} {v : Val E} {u : Bool} {a : Agg E} :
    (∃ a', addEntry src k e.1 v u e.2 a = some a') ↔ Storable k e v u := by
  obtain ⟨key, n⟩ := e
  unfold addEntry Storable
  cases hu : (u || isNilVal v) with
  | true =>
    simp only [if_true, Option.some.injEq, exists_eq', true_iff]
    intro _ h; rw [used_iff.2 h] at hu; cases hu
  | false =>
    have := used_iff.1 hu
    simp only [Bool.false_eq_true, if_false, this, true_imp_iff]
    cases k with
    | mapMap =>
      cases key with
      | key s =>
        simp only [addVal, Option.some.injEq, exists_eq', true_iff, true_imp_iff]
        exact ⟨s, .key⟩
      | idx i =>
        obtain ⟨nv, nsrc, nann⟩ := n
        simp only [addVal, Node.val, true_imp_iff]
        cases nv with
        | str s => simp only [Option.some.injEq, exists_eq', true_iff]; exact ⟨s, .elem⟩
        | _ =>
          simp only [reduceCtorEq, exists_false, false_iff]
          rintro ⟨s, h⟩; cases h
    | _ => cases key <;> simp [addVal]

/-- a successful run of the loop -/
inductive MRun (f : List (Val E) → LamOut E) (np : Nat) (src : String) (k : MapKind) : List (EKey × Node E) → Agg E → Agg E → Prop
  | nil {a} : MRun f np src k [] a a
  | cons {e es v u a b c} : Yield f np e v u → addEntry src k e.1 v u e.2 a = some b → MRun f np src k es b c → MRun f np src k (e :: es) a c

theorem args_unique {key : EKey} {n : Node E} {np : Nat} {a b : List (Val E)} (h : Args key n np a) (h' : Args key n np b) : a = b := by
  rw [← mapInput_iff] at h h'; rw [h] at h'; simpa using h'

theorem yield_unique {f : List (Val E) → LamOut E} {np : Nat} {e : EKey × Node E} {v w : Val E} {u t : Bool}
    (h : Yield f np e v u) (h' : Yield f np e w t) : v = w ∧ u = t := by
  obtain ⟨a, h1, h2, _⟩ := h
  obtain ⟨b, h3, h4, _⟩ := h'
  rw [args_unique h1 h3, h4] at h2
  cases h2; exact ⟨rfl, rfl⟩

/-- what an entry can do -/
theorem mapLoop_cons {f : List (Val E) → LamOut E} {np : Nat} {src : String} {k : MapKind} (e : EKey × Node E) (es : List (EKey × Node E)) (a : Agg E) :
    (∃ v u, Yield f np e v u ∧ ((∃ b, addEntry src k e.1 v u e.2 a = some b ∧ mapLoop f np src k (e :: es) a = mapLoop f np src k es b) ∨
      (¬ Storable k e v u ∧ mapLoop f np src k (e :: es) a = .fail))) ∨
    (LamFails f np e ∧ mapLoop f np src k (e :: es) a = .fail) ∨
    (LamPending f np e ∧ mapLoop f np src k (e :: es) a = .later) ∨
    ((np = 0 ∨ ∃ args, Args e.1 e.2 np args ∧ f args = .panic) ∧ mapLoop f np src k (e :: es) a = .panic) := by
  obtain ⟨key, n⟩ := e
  rw [mapLoop]
  cases hi : mapInput np key n with
  | none =>
    refine .inr (.inr (.inr ⟨.inl ?_, rfl⟩))
    unfold mapInput at hi
    split at hi
    · assumption
    · cases hi
  | some args =>
    have ha := mapInput_iff.1 hi
    simp only
    cases hf : f args with
    | panic => exact .inr (.inr (.inr ⟨.inr ⟨args, ha, hf⟩, rfl⟩))
    | fail => exact .inr (.inl ⟨⟨args, ha, hf⟩, rfl⟩)
    | later => exact .inr (.inr (.inl ⟨⟨args, ha, .inl hf⟩, rfl⟩))
    | val v u =>
      simp only
      by_cases hx : isExprVal v = true
      · rw [if_pos hx]
        obtain ⟨x, rfl⟩ := isExprVal_iff.1 hx
        exact .inr (.inr (.inl ⟨⟨args, ha, .inr ⟨x, u, hf⟩⟩, rfl⟩))
      · rw [if_neg hx]
        refine .inl ⟨v, u, ⟨args, ha, hf, fun x h => hx (isExprVal_iff.2 ⟨x, h⟩)⟩, ?_⟩
        cases hadd : addEntry src k key v u n a with
        | none =>
          refine .inr ⟨fun h => ?_, rfl⟩
          obtain ⟨b, hb⟩ := (addEntry_some (src := src) (k := k) (e := (key, n)) (v := v) (u := u) (a := a)).2 h
          rw [hadd] at hb; cases hb
        | some b => exact .inl ⟨b, rfl, rfl⟩

theorem not_yield_fails {f : List (Val E) → LamOut E} {np : Nat} {e : EKey × Node E} {v : Val E} {u : Bool} (h : Yield f np e v u) : ¬ LamFails f np e := by
  rintro ⟨a, h1, h2⟩
  obtain ⟨b, h3, h4, _⟩ := h
  rw [args_unique h1 h3, h4] at h2; cases h2

theorem not_yield_pending {f : List (Val E) → LamOut E} {np : Nat} {e : EKey × Node E} {v : Val E} {u : Bool} (h : Yield f np e v u) : ¬ LamPending f np e := by
  rintro ⟨a, h1, h2⟩
  obtain ⟨b, h3, h4, h5⟩ := h
  rw [args_unique h1 h3, h4] at h2
  rcases h2 with h2 | ⟨x, t, h2⟩
  · cases h2
  · cases h2; exact h5 x rfl

theorem mapLoop_val {f : List (Val E) → LamOut E} {np : Nat} {src : String} {k : MapKind} : ∀ (es : List (EKey × Node E)) (a : Agg E) (w : Val E),
    mapLoop f np src k es a = .val w ↔ ∃ b, MRun f np src k es a b ∧ w = b.result k := by
  intro es
  induction es with
  | nil =>
    intro a w
    rw [mapLoop]
    constructor
    · intro h; cases h; exact ⟨a, .nil, rfl⟩
    · rintro ⟨b, h, rfl⟩; cases h; rfl
  | cons e es ih =>
    intro a w
    have hno : (∀ b, ¬ mapLoop f np src k (e :: es) a = .val b) → (¬ ∃ v u b, Yield f np e v u ∧ addEntry src k e.1 v u e.2 a = some b) →
        (mapLoop f np src k (e :: es) a = .val w ↔ ∃ b, MRun f np src k (e :: es) a b ∧ w = b.result k) := by
      intro h1 h2
      constructor
      · intro h; exact absurd h (h1 w)
      · rintro ⟨b, h, _⟩
        cases h with
        | cons q1 q2 _ => exact absurd ⟨_, _, _, q1, q2⟩ h2
    rcases mapLoop_cons (f := f) (np := np) (src := src) (k := k) e es a with ⟨v, u, hy, ⟨b, hb, he⟩ | ⟨hs, he⟩⟩ | ⟨hf, he⟩ | ⟨hp, he⟩ | ⟨hp, he⟩
    · rw [he, ih]
      constructor
      · rintro ⟨c, hc, rfl⟩; exact ⟨c, .cons hy hb hc, rfl⟩
      · rintro ⟨c, hc, rfl⟩
        cases hc with
        | cons q1 q2 q3 =>
          obtain ⟨rfl, rfl⟩ := yield_unique hy q1
          rw [hb] at q2; cases q2
          exact ⟨c, q3, rfl⟩
    · apply hno
      · intro b h; rw [he] at h; cases h
      · rintro ⟨v', u', b, q1, q2⟩
        obtain ⟨rfl, rfl⟩ := yield_unique hy q1
        exact hs (addEntry_some.1 ⟨b, q2⟩)
    · apply hno
      · intro b h; rw [he] at h; cases h
      · rintro ⟨v', u', b, q1, q2⟩; exact not_yield_fails q1 hf
    · apply hno
      · intro b h; rw [he] at h; cases h
      · rintro ⟨v', u', b, q1, q2⟩; exact not_yield_pending q1 hp
    · apply hno
      · intro b h; rw [he] at h; cases h
      · rintro ⟨v', u', b, ⟨args, q1, q2, _⟩, _⟩
        rcases hp with rfl | ⟨args', q3, q4⟩
        · cases q1
        · rw [args_unique q3 q1, q2] at q4; cases q4

theorem passes_not_stop {f : List (Val E) → LamOut E} {np : Nat} {k : MapKind} {e : EKey × Node E} (h : LamPasses f np k e) :
    ¬ LamRejects f np k e ∧ ¬ LamPending f np e := by
  obtain ⟨v, u, h1, h2⟩ := h
  refine ⟨?_, not_yield_pending h1⟩
  rintro (h3 | ⟨v', u', h3, h4⟩)
  · exact not_yield_fails h1 h3
  · obtain ⟨rfl, rfl⟩ := yield_unique h1 h3; exact h4 h2

theorem mapLoop_fail {f : List (Val E) → LamOut E} {np : Nat} {src : String} {k : MapKind} : ∀ (es : List (EKey × Node E)) (a : Agg E),
    mapLoop f np src k es a = .fail ↔ ∃ x e y, es = x ++ e :: y ∧ (∀ e ∈ x, LamPasses f np k e) ∧ LamRejects f np k e := by
  intro es
  induction es with
  | nil => intro a; simp [mapLoop]
  | cons e es ih =>
    intro a
    have hhere : LamRejects f np k e → mapLoop f np src k (e :: es) a = .fail → (mapLoop f np src k (e :: es) a = .fail ↔
        ∃ x e' y, e :: es = x ++ e' :: y ∧ (∀ e ∈ x, LamPasses f np k e) ∧ LamRejects f np k e') := by
      intro h1 h2
      exact ⟨fun _ => ⟨[], e, es, rfl, by simp, h1⟩, fun _ => h2⟩
    have hother : ¬ LamRejects f np k e → ¬ LamPasses f np k e → mapLoop f np src k (e :: es) a ≠ .fail → (mapLoop f np src k (e :: es) a = .fail ↔
        ∃ x e' y, e :: es = x ++ e' :: y ∧ (∀ e ∈ x, LamPasses f np k e) ∧ LamRejects f np k e') := by
      intro h1 h2 h3
      refine ⟨fun h => absurd h h3, ?_⟩
      rintro ⟨x, e', y, q1, q2, q3⟩
      cases x with
      | nil => cases q1; exact absurd q3 h1
      | cons e0 x => cases q1; exact absurd (q2 e (List.mem_cons_self ..)) h2
    rcases mapLoop_cons (f := f) (np := np) (src := src) (k := k) e es a with ⟨v, u, hy, ⟨b, hb, he⟩ | ⟨hs, he⟩⟩ | ⟨hf, he⟩ | ⟨hp, he⟩ | ⟨hp, he⟩
    · have hpass : LamPasses f np k e := ⟨v, u, hy, addEntry_some.1 ⟨b, hb⟩⟩
      rw [he, ih]
      constructor
      · rintro ⟨x, e', y, rfl, q2, q3⟩
        refine ⟨e :: x, e', y, rfl, ?_, q3⟩
        intro e0 h0
        rcases List.mem_cons.1 h0 with rfl | h0
        · exact hpass
        · exact q2 e0 h0
      · rintro ⟨x, e', y, q1, q2, q3⟩
        cases x with
        | nil => cases q1; exact absurd q3 (passes_not_stop hpass).1
        | cons e0 x => cases q1; exact ⟨x, e', y, rfl, fun e0 h0 => q2 e0 (List.mem_cons_of_mem _ h0), q3⟩
    · exact hhere (.inr ⟨v, u, hy, hs⟩) he
    · exact hhere (.inl hf) he
    · have h1 : ¬ LamPasses f np k e := fun h => (passes_not_stop h).2 hp
      refine hother ?_ h1 (by rw [he]; simp)
      rintro (⟨b, h3, h4⟩ | ⟨v', u', h3, h4⟩)
      · obtain ⟨a', h1, h2⟩ := hp
        rw [args_unique h1 h3, h4] at h2
        rcases h2 with h2 | ⟨x, t, h2⟩ <;> cases h2
      · exact not_yield_pending h3 hp
    · refine hother ?_ ?_ (by rw [he]; simp)
      · rintro (⟨b, h3, h4⟩ | ⟨v', u', ⟨b, h3, h4, _⟩, _⟩)
        · rcases hp with rfl | ⟨args', q3, q4⟩
          · cases h3
          · rw [args_unique q3 h3, h4] at q4; cases q4
        · rcases hp with rfl | ⟨args', q3, q4⟩
          · cases h3
          · rw [args_unique q3 h3, h4] at q4; cases q4
      · rintro ⟨v', u', ⟨b, h3, h4, _⟩, _⟩
        rcases hp with rfl | ⟨args', q3, q4⟩
        · cases h3
        · rw [args_unique q3 h3, h4] at q4; cases q4

theorem mapLoop_later {f : List (Val E) → LamOut E} {np : Nat} {src : String} {k : MapKind} : ∀ (es : List (EKey × Node E)) (a : Agg E),
    mapLoop f np src k es a = .later ↔ ∃ x e y, es = x ++ e :: y ∧ (∀ e ∈ x, LamPasses f np k e) ∧ LamPending f np e := by
  intro es
  induction es with
  | nil => intro a; simp [mapLoop]
  | cons e es ih =>
    intro a
    have hother : ¬ LamPending f np e → ¬ LamPasses f np k e → mapLoop f np src k (e :: es) a ≠ .later → (mapLoop f np src k (e :: es) a = .later ↔
        ∃ x e' y, e :: es = x ++ e' :: y ∧ (∀ e ∈ x, LamPasses f np k e) ∧ LamPending f np e') := by
      intro h1 h2 h3
      refine ⟨fun h => absurd h h3, ?_⟩
      rintro ⟨x, e', y, q1, q2, q3⟩
      cases x with
      | nil => cases q1; exact absurd q3 h1
      | cons e0 x => cases q1; exact absurd (q2 e (List.mem_cons_self ..)) h2
    rcases mapLoop_cons (f := f) (np := np) (src := src) (k := k) e es a with ⟨v, u, hy, ⟨b, hb, he⟩ | ⟨hs, he⟩⟩ | ⟨hf, he⟩ | ⟨hp, he⟩ | ⟨hp, he⟩
    · have hpass : LamPasses f np k e := ⟨v, u, hy, addEntry_some.1 ⟨b, hb⟩⟩
      rw [he, ih]
      constructor
      · rintro ⟨x, e', y, rfl, q2, q3⟩
        refine ⟨e :: x, e', y, rfl, ?_, q3⟩
        intro e0 h0
        rcases List.mem_cons.1 h0 with rfl | h0
        · exact hpass
        · exact q2 e0 h0
      · rintro ⟨x, e', y, q1, q2, q3⟩
        cases x with
        | nil => cases q1; exact absurd q3 (passes_not_stop hpass).2
        | cons e0 x => cases q1; exact ⟨x, e', y, rfl, fun e0 h0 => q2 e0 (List.mem_cons_of_mem _ h0), q3⟩
    · refine hother (not_yield_pending hy) (fun h => (passes_not_stop h).1 (.inr ⟨v, u, hy, hs⟩)) (by rw [he]; simp)
    · refine hother ?_ (fun h => (passes_not_stop h).1 (.inl hf)) (by rw [he]; simp)
      rintro ⟨a', h1, h2⟩
      obtain ⟨b, h3, h4⟩ := hf
      rw [args_unique h1 h3, h4] at h2
      rcases h2 with h2 | ⟨x, t, h2⟩ <;> cases h2
    · exact ⟨fun _ => ⟨[], e, es, rfl, by simp, hp⟩, fun _ => he⟩
    · refine hother ?_ ?_ (by rw [he]; simp)
      · rintro ⟨b, h3, h4⟩
        rcases hp with rfl | ⟨args', q3, q4⟩
        · cases h3
        · rw [args_unique q3 h3] at q4
          rcases h4 with h4 | ⟨x, t, h4⟩ <;> rw [h4] at q4 <;> cases q4
      · rintro ⟨v', u', ⟨b, h3, h4, _⟩, _⟩
        rcases hp with rfl | ⟨args', q3, q4⟩
        · cases h3
        · rw [args_unique q3 h3, h4] at q4; cases q4

end Spiff
