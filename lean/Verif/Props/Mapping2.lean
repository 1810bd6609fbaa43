import Verif.Props.Mapping
/-
C39: the results of map, select, filter and sum.
-/
namespace Spiff
open Spec
variable {E : Type}

theorem supports_iff (k : MapKind) (v : Val E) : k.supports v = true ↔ Source k v := by
  constructor
  · intro h
    cases k <;> cases v <;> first | constructor | cases h
  · intro h
    cases h <;> rfl

/-- the source is acceptable: a well-formed list or map, supported by the kind of mapping; for lists there are at most two parameters -/
structure Mappable (k : MapKind) (np : Nat) (v : Val E) : Prop where
  supported : Source k v
  ok : ∀ m, v = .map m → MapOK m
  params : ∀ l, v = .list l → np ≤ 2

theorem doMapping_eq {f : List (Val E) → LamOut E} {np : Nat} {src : String} {k : MapKind} {v : Val E} {es : List (EKey × Node E)}
    (hm : Mappable k np v) (hv : Visit v es) : doMapping f np src k v = mapLoop f np src k es {} := by
  unfold doMapping
  rw [if_pos ((supports_iff k v).2 hm.supported)]
  cases v with
  | list l =>
    have := hm.params l rfl
    simp only
    rw [if_neg (by omega), visit_list.1 hv]
  | map m => simp only; rw [(visit_map (hm.ok m rfl)).1 hv]
  | _ => cases hv

/-- C39: every list or map is visited in exactly one order. -/
theorem visit_total {v : Val E} (h : (∃ l, v = .list l) ∨ ∃ m, v = .map m ∧ MapOK m) : ∃ es, Visit v es ∧ ∀ es', Visit v es' → es' = es := by
  rcases h with ⟨l, rfl⟩ | ⟨m, rfl, hm⟩
  · exact ⟨_, visit_list.2 rfl, fun _ h => visit_list.1 h⟩
  · exact ⟨_, (visit_map hm).2 rfl, fun _ h => (visit_map hm).1 h⟩

/-- C39: the outcome does not depend on the order of the fields of a map. -/
theorem mapping_order_independent (f : List (Val E) → LamOut E) (np : Nat) (src : String) (k : MapKind) {m m' : List (String × Node E)}
    (hm : MapOK m) (hp : m.Perm m') (initial : Val E) :
    doMapping f np src k (.map m) = doMapping f np src k (.map m') ∧ doSum f np initial (.map m) = doSum f np initial (.map m') := by
  have hm' : MapOK m' := (hp.map Prod.fst).nodup_iff.1 hm
  have he : mapEntriesSorted m = mapEntriesSorted m' := by
    have hv := (visit_map hm).2 (rfl : mapEntriesSorted m = _)
    apply (visit_map hm').1
    generalize hes : mapEntriesSorted m = es at hv
    generalize hx : Val.map m = x at hv
    cases hv with
    | list => cases hx
    | map h1 h2 => cases hx; exact .map (h1.trans hp) h2
  constructor
  · unfold doMapping; simp only [he]
    cases k <;> rfl
  · simp only [doSum, he]

/-- C39: a mapping succeeds exactly if every entry yields a value that can be stored. -/
theorem mapping_succeeds_iff {f : List (Val E) → LamOut E} {np : Nat} {src : String} {k : MapKind} {v : Val E} {es : List (EKey × Node E)}
    (hm : Mappable k np v) (hv : Visit v es) : (∃ w, doMapping f np src k v = .val w) ↔ ∀ e ∈ es, LamPasses f np k e := by
  rw [doMapping_eq hm hv]
  have : ∀ (es : List (EKey × Node E)) (a : Agg E), (∃ b, MRun f np src k es a b) ↔ ∀ e ∈ es, LamPasses f np k e := by
    intro es
    induction es with
    | nil => intro a; simp only [List.not_mem_nil, false_imp_iff, implies_true, iff_true]; exact ⟨a, .nil⟩
    | cons e es ih =>
      intro a
      constructor
      · rintro ⟨b, h⟩
        cases h with
        | cons q1 q2 q3 =>
          intro e' he'
          rcases List.mem_cons.1 he' with rfl | he'
          · exact ⟨_, _, q1, addEntry_some.1 ⟨_, q2⟩⟩
          · exact (ih _).1 ⟨_, q3⟩ e' he'
      · intro h
        obtain ⟨v, u, h1, h2⟩ := h e (List.mem_cons_self ..)
        obtain ⟨b, hb⟩ := (addEntry_some (src := src) (a := a)).2 h2
        obtain ⟨c, hc⟩ := (ih b).2 (fun e' he' => h e' (List.mem_cons_of_mem _ he'))
        exact ⟨c, .cons h1 hb hc⟩
  rw [← this es {}]
  constructor
  · rintro ⟨w, h⟩
    obtain ⟨b, hb, _⟩ := (mapLoop_val _ _ _).1 h
    exact ⟨b, hb⟩
  · rintro ⟨b, hb⟩
    exact ⟨_, (mapLoop_val _ _ _).2 ⟨b, hb, rfl⟩⟩

/-- C39: a mapping fails exactly if some entry is rejected after all entries in front of it have been handled. -/
theorem mapping_fails_iff {f : List (Val E) → LamOut E} {np : Nat} {src : String} {k : MapKind} {v : Val E} {es : List (EKey × Node E)}
    (hm : Mappable k np v) (hv : Visit v es) : doMapping f np src k v = .fail ↔
    ∃ x e y, es = x ++ e :: y ∧ (∀ e ∈ x, LamPasses f np k e) ∧ LamRejects f np k e := by
  rw [doMapping_eq hm hv]; exact mapLoop_fail es {}

/-- C39: a mapping is postponed exactly if some entry is not yet evaluable after all entries in front of it have been handled. -/
theorem mapping_postponed_iff {f : List (Val E) → LamOut E} {np : Nat} {src : String} {k : MapKind} {v : Val E} {es : List (EKey × Node E)}
    (hm : Mappable k np v) (hv : Visit v es) : doMapping f np src k v = .later ↔
    ∃ x e y, es = x ++ e :: y ∧ (∀ e ∈ x, LamPasses f np k e) ∧ LamPending f np e := by
  rw [doMapping_eq hm hv]; exact mapLoop_later es {}

/-- C39: unsupported sources are rejected, and lists with lambdas of more than two parameters. -/
theorem mapping_unsupported (f : List (Val E) → LamOut E) (np : Nat) (src : String) (k : MapKind) (v : Val E)
    (h : ¬ Source k v ∨ ((∃ l, v = .list l) ∧ 2 < np)) : doMapping f np src k v = .fail := by
  unfold doMapping
  rcases h with h | ⟨⟨l, rfl⟩, h⟩
  · rw [if_neg (fun hs => h ((supports_iff k v).1 hs))]
  · split
    · simp [h]
    · rfl

/-! ### the results -/

theorem addEntry_skip {src : String} {k : MapKind} {key : EKey} {v : Val E} {u : Bool} {n : Node E} {a : Agg E} (h : ¬ Used v u) :
    addEntry src k key v u n a = some a := by
  unfold addEntry
  cases hu : (u || isNilVal v) with
  | true => rfl
  | false => exact absurd (used_iff.1 hu) h

theorem addEntry_use {src : String} {k : MapKind} {key : EKey} {v : Val E} {u : Bool} {n : Node E} {a : Agg E} (h : Used v u) :
    addEntry src k key v u n a = addVal src k key v n a := by
  unfold addEntry
  rw [used_iff.2 h]; rfl

theorem run_mapList {f : List (Val E) → LamOut E} {np : Nat} {src : String} : ∀ (es : List (EKey × Node E)) (a b : Agg E),
    MRun f np src .mapList es a b ↔ ∃ r, MappedList src f np es r ∧ b = { a with list := a.list ++ r } := by
  intro es
  induction es with
  | nil =>
    intro a b
    constructor
    · intro h; cases h; exact ⟨[], .nil, by simp⟩
    · rintro ⟨r, h, rfl⟩; cases h; simp; exact .nil
  | cons e es ih =>
    intro a b
    constructor
    · intro h
      cases h with
      | @cons _ _ v u _ c _ q1 q2 q3 =>
        obtain ⟨r, hr, rfl⟩ := (ih _ _).1 q3
        by_cases hu : Used v u
        · rw [addEntry_use hu] at q2
          simp only [addVal, Option.some.injEq] at q2
          subst q2
          exact ⟨_, .use q1 hu hr, by simp⟩
        · rw [addEntry_skip hu] at q2
          cases q2
          exact ⟨_, .skip q1 hu hr, rfl⟩
    · rintro ⟨r, h, rfl⟩
      cases h with
      | use q1 q2 q3 =>
        refine .cons q1 (by rw [addEntry_use q2]; rfl) ((ih _ _).2 ⟨_, q3, ?_⟩)
        simp
      | skip q1 q2 q3 => exact .cons q1 (addEntry_skip q2) ((ih _ _).2 ⟨_, q3, rfl⟩)

/-- C39: `map[…]` yields the list of the values (neither nil nor undefined) of the lambda for the entries, in the order of the entries. -/
theorem map_list_value {f : List (Val E) → LamOut E} {np : Nat} {src : String} {v w : Val E} {es : List (EKey × Node E)}
    (hm : Mappable .mapList np v) (hv : Visit v es) : doMapping f np src .mapList v = .val w ↔ ∃ r, w = .list r ∧ MappedList src f np es r := by
  rw [doMapping_eq hm hv, mapLoop_val]
  constructor
  · rintro ⟨b, hb, rfl⟩
    obtain ⟨r, hr, rfl⟩ := (run_mapList _ _ _).1 hb
    exact ⟨r, by simp [Agg.result, MapKind.toList], hr⟩
  · rintro ⟨r, rfl, hr⟩
    exact ⟨_, (run_mapList _ _ _).2 ⟨r, hr, rfl⟩, by simp [Agg.result, MapKind.toList]⟩

theorem addEntry_selList {src : String} {k : MapKind} (hk : k = .selectList ∨ k = .filterList) {key : EKey} {v : Val E} {u : Bool} {n : Node E} {a : Agg E} :
    (Holds v u → addEntry src k key v u n a = some { a with list := a.list ++ [n] }) ∧ (¬ Holds v u → addEntry src k key v u n a = some a) := by
  constructor
  · rintro ⟨h1, h2⟩
    rw [addEntry_use h1]
    rcases hk with rfl | rfl <;> simp [addVal, h2]
  · intro h
    by_cases hu : Used v u
    · have ht : toBool v = false := by
        cases ht : toBool v with
        | false => rfl
        | true => exact absurd ⟨hu, ht⟩ h
      rw [addEntry_use hu]
      rcases hk with rfl | rfl <;> simp [addVal, ht]
    · exact addEntry_skip hu

theorem run_selList {f : List (Val E) → LamOut E} {np : Nat} {src : String} {k : MapKind} (hk : k = .selectList ∨ k = .filterList) :
    ∀ (es : List (EKey × Node E)) (a b : Agg E),
    MRun f np src k es a b ↔ ∃ r, Selected f np es r ∧ b = { a with list := a.list ++ r.map (·.2) } := by
  intro es
  induction es with
  | nil =>
    intro a b
    constructor
    · intro h; cases h; exact ⟨[], .nil, by simp⟩
    · rintro ⟨r, h, rfl⟩; cases h; simp; exact .nil
  | cons e es ih =>
    intro a b
    constructor
    · intro h
      cases h with
      | @cons _ _ v u _ c _ q1 q2 q3 =>
        obtain ⟨r, hr, rfl⟩ := (ih _ _).1 q3
        by_cases hu : Holds v u
        · rw [(addEntry_selList hk).1 hu] at q2
          cases q2
          exact ⟨_, .take q1 hu hr, by simp⟩
        · rw [(addEntry_selList hk).2 hu] at q2
          cases q2
          exact ⟨_, .drop q1 hu hr, rfl⟩
    · rintro ⟨r, h, rfl⟩
      cases h with
      | take q1 q2 q3 => exact .cons q1 ((addEntry_selList hk).1 q2) ((ih _ _).2 ⟨_, q3, by simp⟩)
      | drop q1 q2 q3 => exact .cons q1 ((addEntry_selList hk).2 q2) ((ih _ _).2 ⟨_, q3, rfl⟩)

/-- C39: `select[…]` and `filter[…]` yield exactly the entries whose condition is true, unchanged and in order. -/
theorem select_list_value {f : List (Val E) → LamOut E} {np : Nat} {src : String} {k : MapKind} (hk : k = .selectList ∨ k = .filterList)
    {v w : Val E} {es : List (EKey × Node E)} (hm : Mappable k np v) (hv : Visit v es) :
    doMapping f np src k v = .val w ↔ ∃ r, w = .list (r.map (·.2)) ∧ Selected f np es r := by
  rw [doMapping_eq hm hv, mapLoop_val]
  have hres : ∀ a : Agg E, a.result k = .list a.list := by intro a; rcases hk with rfl | rfl <;> rfl
  constructor
  · rintro ⟨b, hb, rfl⟩
    obtain ⟨r, hr, rfl⟩ := (run_selList hk _ _ _).1 hb
    exact ⟨r, by rw [hres]; simp, hr⟩
  · rintro ⟨r, rfl, hr⟩
    exact ⟨_, (run_selList hk _ _ _).2 ⟨r, hr, rfl⟩, by rw [hres]; simp⟩

theorem addEntry_selMap {src : String} {k : MapKind} (hk : k = .selectMap ∨ k = .filterMap) {s : String} {v : Val E} {u : Bool} {n : Node E} {a : Agg E} :
    (Holds v u → addEntry src k (.key s) v u n a = some { a with map := mset a.map s n }) ∧ (¬ Holds v u → addEntry src k (.key s) v u n a = some a) := by
  constructor
  · rintro ⟨h1, h2⟩
    rw [addEntry_use h1]
    rcases hk with rfl | rfl <;> simp [addVal, h2]
  · intro h
    by_cases hu : Used v u
    · have ht : toBool v = false := by
        cases ht : toBool v with
        | false => rfl
        | true => exact absurd ⟨hu, ht⟩ h
      rw [addEntry_use hu]
      rcases hk with rfl | rfl <;> simp [addVal, ht]
    · exact addEntry_skip hu

theorem selected_sublist {f : List (Val E) → LamOut E} {np : Nat} {es r : List (EKey × Node E)} (h : Selected f np es r) : r.Sublist es := by
  induction h with
  | nil => exact .slnil
  | take _ _ _ ih => exact ih.cons_cons _
  | drop _ _ _ ih => exact ih.cons _

theorem run_selMap {f : List (Val E) → LamOut E} {np : Nat} {src : String} {k : MapKind} (hk : k = .selectMap ∨ k = .filterMap) :
    ∀ (s : List (String × Node E)) (a b : Agg E), (s.map (·.1)).Nodup →
    MRun f np src k (s.map (fun e => (.key e.1, e.2))) a b → MapOK a.map →
    ∃ r, Selected f np (s.map (fun e => (.key e.1, e.2))) r ∧ MapOK b.map ∧
      ∀ x n, mget b.map x = some n ↔ (.key x, n) ∈ r ∨ (mget a.map x = some n ∧ ∀ n', (.key x, n') ∉ r) := by
  intro s
  induction s with
  | nil =>
    intro a b _ h ha
    cases h
    exact ⟨[], .nil, ha, by simp⟩
  | cons e s ih =>
    intro a b hn h ha
    have hn' : e.1 ∉ s.map (·.1) ∧ (s.map (·.1)).Nodup := by simpa using hn
    have hnot : ∀ r, Selected f np (s.map (fun e => (.key e.1, e.2))) r → ∀ n', (EKey.key e.1, n') ∉ r := by
      intro r hr n' hmem
      have := (selected_sublist hr).subset hmem
      obtain ⟨e', he', heq⟩ := List.mem_map.1 this
      simp only [Prod.mk.injEq, EKey.key.injEq] at heq
      exact hn'.1 (heq.1 ▸ List.mem_map_of_mem he')
    cases h with
    | @cons _ _ v u _ c _ q1 q2 q3 =>
      by_cases hu : Holds v u
      · rw [(addEntry_selMap hk).1 hu] at q2
        cases q2
        obtain ⟨r, hr, hok, hget⟩ := ih _ _ hn'.2 q3 (MapOK_mset ha _ _)
        refine ⟨_, .take q1 hu hr, hok, fun x n => ?_⟩
        rw [hget]
        simp only
        rw [mget_mset]
        constructor
        · rintro (h1 | ⟨h1, h2⟩)
          · exact .inl (List.mem_cons_of_mem _ h1)
          · split at h1
            · rename_i hx; subst hx; cases h1; exact .inl (List.mem_cons_self ..)
            · rename_i hx
              refine .inr ⟨h1, fun n' h3 => ?_⟩
              rcases List.mem_cons.1 h3 with h3 | h3
              · cases h3; exact hx rfl
              · exact h2 n' h3
        · rintro (h1 | ⟨h1, h2⟩)
          · rcases List.mem_cons.1 h1 with h3 | h3
            · cases h3
              exact .inr ⟨by simp, hnot r hr⟩
            · exact .inl h3
          · right
            have hx : x ≠ e.1 := by rintro rfl; exact h2 e.2 (List.mem_cons_self ..)
            rw [if_neg hx]
            exact ⟨h1, fun n' h3 => h2 n' (List.mem_cons_of_mem _ h3)⟩
      · rw [(addEntry_selMap hk).2 hu] at q2
        cases q2
        obtain ⟨r, hr, hok, hget⟩ := ih _ _ hn'.2 q3 ha
        exact ⟨_, .drop q1 hu hr, hok, hget⟩

/-- C39: `select{…}` and `filter{…}` yield the map with exactly the fields whose condition is true, unchanged. -/
theorem select_map_value {f : List (Val E) → LamOut E} {np : Nat} {src : String} {k : MapKind} (hk : k = .selectMap ∨ k = .filterMap)
    {v w : Val E} {es : List (EKey × Node E)} (hm : Mappable k np v) (hv : Visit v es) (h : doMapping f np src k v = .val w) :
    ∃ m r, w = .map m ∧ Selected f np es r ∧ MapOK m ∧ ∀ x n, mget m x = some n ↔ (.key x, n) ∈ r := by
  rw [doMapping_eq hm hv, mapLoop_val] at h
  obtain ⟨b, hb, rfl⟩ := h
  have hres : b.result k = .map b.map := by rcases hk with rfl | rfl <;> rfl
  cases hv with
  | list => have := hm.supported; rcases hk with rfl | rfl <;> cases this
  | map h1 h2 =>
    have hn := h2.imp (S := (· ≠ ·)) (fun {a b} (hab : a < b) (he : a = b) => by subst he; exact absurd hab (String.lt_irrefl _))
    obtain ⟨r, hr, hok, hget⟩ := run_selMap hk _ _ _ hn hb (by simp [MapOK, mkeys])
    refine ⟨b.map, r, hres, hr, hok, fun x n => ?_⟩
    rw [hget]
    simp [mget]

theorem run_mapMap {f : List (Val E) → LamOut E} {np : Nat} {src : String} : ∀ (es : List (EKey × Node E)) (a b : Agg E),
    MRun f np src .mapMap es a b → MapOK a.map → MapOK b.map ∧
      (∀ e v u x, LastSuch es (fun e => Field e x ∧ ∃ v u, Yield f np e v u ∧ Used v u) e → Yield f np e v u → mget b.map x = some (Node.new v (dynSource src))) ∧
      (∀ x, (∀ e ∈ es, ¬ (Field e x ∧ ∃ v u, Yield f np e v u ∧ Used v u)) → mget b.map x = mget a.map x) := by
  intro es
  induction es with
  | nil =>
    intro a b h ha
    cases h
    refine ⟨ha, ?_, fun _ _ => rfl⟩
    rintro e v u x ⟨l, r, h, _⟩
    simp at h
  | cons e es ih =>
    intro a b h ha
    cases h with
    | @cons _ _ v u _ c _ q1 q2 q3 =>
      by_cases hu : Used v u
      · obtain ⟨s, hs⟩ := addEntry_some.1 ⟨c, q2⟩ rfl hu
        have hc : c = { a with map := mset a.map s (Node.new v (dynSource src)) } := by
          rw [addEntry_use hu] at q2
          cases hs with
          | key => simpa [addVal] using q2.symm
          | elem => simpa [addVal, Node.val] using q2.symm
        have hsu : ∀ x, Field e x → x = s := by
          intro x hx
          cases hs with
          | key => cases hx; rfl
          | elem => cases hx; rfl
        subst hc
        obtain ⟨r1, r2, r3⟩ := ih _ _ q3 (MapOK_mset ha _ _)
        refine ⟨r1, ?_, ?_⟩
        · rintro e' v' u' x ⟨l, r, h1, h2, h3⟩ hy
          cases l with
          | nil =>
            cases h1
            have := hsu x h2.1
            subst this
            rw [r3 x h3]
            simp only
            rw [mget_mset_self, (yield_unique hy q1).1]
          | cons e0 l =>
            cases h1
            exact r2 e' v' u' x ⟨l, r, rfl, h2, h3⟩ hy
        · intro x hx
          rw [r3 x (fun e' he' => hx e' (List.mem_cons_of_mem _ he'))]
          simp only
          rw [mget_mset_ne]
          rintro rfl
          exact hx e (List.mem_cons_self ..) ⟨hs, v, u, q1, hu⟩
      · rw [addEntry_skip hu] at q2
        cases q2
        obtain ⟨r1, r2, r3⟩ := ih _ _ q3 ha
        refine ⟨r1, ?_, fun x hx => r3 x (fun e' he' => hx e' (List.mem_cons_of_mem _ he'))⟩
        rintro e' v' u' x ⟨l, r, h1, h2, h3⟩ hy
        cases l with
        | nil =>
          cases h1
          obtain ⟨_, v2, u2, h4, h5⟩ := h2
          obtain ⟨rfl, rfl⟩ := yield_unique h4 q1
          exact absurd h5 hu
        | cons e0 l =>
          cases h1
          exact r2 e' v' u' x ⟨l, r, rfl, h2, h3⟩ hy

/-- C39: `map{…}` yields the map with the fields given by the entries: the key of a map entry, the value of a list entry; the value is the one of
the lambda. Entries with nil or undefined values are omitted. If a list contains an element several times, the last one wins. -/
theorem map_map_value {f : List (Val E) → LamOut E} {np : Nat} {src : String} {v w : Val E} {es : List (EKey × Node E)}
    (hm : Mappable .mapMap np v) (hv : Visit v es) (h : doMapping f np src .mapMap v = .val w) :
    ∃ m, w = .map m ∧ MapOK m ∧
      (∀ e v u x, LastSuch es (fun e => Field e x ∧ ∃ v u, Yield f np e v u ∧ Used v u) e → Yield f np e v u → mget m x = some (Node.new v (dynSource src))) ∧
      (∀ x, (∀ e ∈ es, ¬ (Field e x ∧ ∃ v u, Yield f np e v u ∧ Used v u)) → mget m x = none) := by
  rw [doMapping_eq hm hv, mapLoop_val] at h
  obtain ⟨b, hb, rfl⟩ := h
  obtain ⟨r1, r2, r3⟩ := run_mapMap _ _ _ hb (by simp [MapOK, mkeys])
  exact ⟨b.map, rfl, r1, r2, fun x hx => by rw [r3 x hx]; rfl⟩

/-! ### sum -/

theorem sumInput_two (r : Val E) (key : EKey) (n : Node E) : sumInput 2 r key n = some [r, n.val] := rfl

theorem sumInput_more (k : Nat) (r : Val E) (key : EKey) (n : Node E) :
    sumInput (k + 3) r key n = some (r :: key.val :: (List.replicate k .nil ++ [n.val])) := by
  unfold sumInput
  rw [if_neg (by omega)]
  congr 1
  rw [List.replicate_succ, List.set_cons_zero, List.set_cons_succ, List.replicate_succ, List.set_cons_zero, show k + 3 - 1 = k + 1 + 1 from rfl,
    List.set_cons_succ, List.set_cons_succ, List.replicate_succ', List.set_append_right _ _ (by simp)]
  simp

theorem sumLoop_val {f : List (Val E) → LamOut E} {np : Nat} (hnp : 2 ≤ np) : ∀ (es : List (EKey × Node E)) (r w : Val E),
    sumLoop f np es r = .val w ↔ Summed f es np r w := by
  intro es
  induction es with
  | nil =>
    intro r w
    rw [sumLoop]
    constructor
    · intro h; cases h; exact .nil
    · intro h; cases h; rfl
  | cons e es ih =>
    intro r w
    obtain ⟨key, n⟩ := e
    rw [sumLoop]
    match np, hnp, ih with
    | 2, _, ih =>
      rw [sumInput_two]
      simp only
      cases hf : f [r, n.val] with
      | val v u =>
        simp only
        by_cases hx : isExprVal v = true
        · rw [if_pos hx]
          obtain ⟨x, rfl⟩ := isExprVal_iff.1 hx
          constructor
          · intro h; cases h
          · intro h
            cases h with
            | two h1 h2 h3 => rw [hf] at h1; cases h1; exact absurd rfl (h2 x)
        · rw [if_neg hx, ih]
          constructor
          · intro h; exact .two hf (fun x h' => hx (isExprVal_iff.2 ⟨x, h'⟩)) h
          · intro h
            cases h with
            | two h1 h2 h3 => rw [hf] at h1; cases h1; exact h3
      | _ =>
        constructor
        · intro h; cases h
        · intro h
          cases h with
          | two h1 h2 h3 => rw [hf] at h1; cases h1
    | k + 3, _, ih =>
      rw [sumInput_more]
      simp only
      cases hf : f (r :: key.val :: (List.replicate k .nil ++ [n.val])) with
      | val v u =>
        simp only
        by_cases hx : isExprVal v = true
        · rw [if_pos hx]
          obtain ⟨x, rfl⟩ := isExprVal_iff.1 hx
          constructor
          · intro h; cases h
          · intro h
            cases h with
            | more h1 h2 h3 => rw [hf] at h1; cases h1; exact absurd rfl (h2 x)
        · rw [if_neg hx, ih]
          constructor
          · intro h; exact .more hf (fun x h' => hx (isExprVal_iff.2 ⟨x, h'⟩)) h
          · intro h
            cases h with
            | more h1 h2 h3 => rw [hf] at h1; cases h1; exact h3
      | _ =>
        constructor
        · intro h; cases h
        · intro h
          cases h with
          | more h1 h2 h3 => rw [hf] at h1; cases h1

/-- C39: `sum` folds the entries in order: the lambda gets the result so far (initially the given value), the key (if it has at least
three parameters) and the value of the entry. -/
theorem sum_value {f : List (Val E) → LamOut E} {np : Nat} {initial v w : Val E} {es : List (EKey × Node E)} (hv : Visit v es)
    (hok : ∀ m, v = .map m → MapOK m) (hnp : 2 ≤ np) (hnl : ∀ l, v = .list l → np ≤ 3) :
    doSum f np initial v = .val w ↔ Summed f es np initial w := by
  rw [← sumLoop_val hnp]
  cases v with
  | list l =>
    have := hnl l rfl
    rw [doSum, if_neg (by omega), visit_list.1 hv]
  | map m => rw [doSum, (visit_map (hok m rfl)).1 hv]
  | _ => cases hv

/-- C39: the fold is unique -/
theorem summed_unique {f : List (Val E) → LamOut E} {np : Nat} {es : List (EKey × Node E)} {r w w' : Val E} (h : Summed f es np r w)
    (h' : Summed f es np r w') : w = w' := by
  induction h with
  | nil => cases h'; rfl
  | two h1 _ _ ih =>
    cases h' with
    | two g1 _ g3 => rw [h1] at g1; cases g1; exact ih g3
  | more h1 _ _ ih =>
    cases h' with
    | more g1 _ g3 => rw [h1] at g1; cases g1; exact ih g3

/-- C39: sums of other values, and of lists with a lambda without two or three parameters, are rejected. -/
theorem sum_unsupported (f : List (Val E) → LamOut E) (np : Nat) (initial v : Val E)
    (h : (¬ ∃ l, v = .list l) ∧ (¬ ∃ m, v = .map m) ∨ ((∃ l, v = .list l) ∧ (np < 2 ∨ 3 < np))) : doSum f np initial v = .fail := by
  rcases h with ⟨h1, h2⟩ | ⟨⟨l, rfl⟩, h⟩
  · cases v with
    | list l => exact absurd ⟨l, rfl⟩ h1
    | map m => exact absurd ⟨m, rfl⟩ h2
    | _ => rfl
  · rw [doSum, if_pos (by omega)]

/-- C39 (defect): a lambda without parameters, or a sum of a map with less than two parameters, crashes the processing for non-empty sources. -/
theorem mapping_crash (f : List (Val E) → LamOut E) (src : String) (n : Node E) (x : String) (initial : Val E) :
    doMapping f 0 src .mapList (.list [n]) = .panic ∧ doMapping f 0 src .mapMap (.map [(x, n)]) = .panic ∧
    doSum f 1 initial (.map [(x, n)]) = .panic := by
  refine ⟨rfl, ?_, ?_⟩
  · simp [doMapping, MapKind.supports, mapEntriesSorted, sortedKeys, mkeys, sortStr, insertStr, mget, mapLoop, mapInput]
  · simp [doSum, mapEntriesSorted, sortedKeys, mkeys, sortStr, insertStr, mget, sumLoop, sumInput]

/-- C39: there is no other crash: with at least one (sum: two) parameters a mapping crashes only if the body does. -/
theorem mapping_no_crash {f : List (Val E) → LamOut E} (hf : ∀ a, f a ≠ .panic) {np : Nat} (src : String) (k : MapKind) (initial v : Val E) :
    (1 ≤ np → doMapping f np src k v ≠ .panic) ∧ (2 ≤ np → doSum f np initial v ≠ .panic) := by
  have h1 : 1 ≤ np → ∀ (es : List (EKey × Node E)) (a : Agg E), mapLoop f np src k es a ≠ .panic := by
    intro hnp es
    induction es with
    | nil => intro a h; rw [mapLoop] at h; cases h
    | cons e es ih =>
      intro a
      rcases mapLoop_cons (f := f) (np := np) (src := src) (k := k) e es a with ⟨v, u, hy, ⟨b, hb, he⟩ | ⟨hs, he⟩⟩ | ⟨_, he⟩ | ⟨_, he⟩ | ⟨hp, he⟩
      · rw [he]; exact ih b
      · rw [he]; simp
      · rw [he]; simp
      · rw [he]; simp
      · rcases hp with rfl | ⟨args, _, hp⟩
        · omega
        · exact absurd hp (hf args)
  have h2 : 2 ≤ np → ∀ (es : List (EKey × Node E)) (r : Val E), sumLoop f np es r ≠ .panic := by
    intro hnp es
    induction es with
    | nil => intro r h; rw [sumLoop] at h; cases h
    | cons e es ih =>
      intro r
      rw [sumLoop]
      have : ∃ inp, sumInput np r e.1 e.2 = some inp := by unfold sumInput; rw [if_neg (by omega)]; exact ⟨_, rfl⟩
      obtain ⟨inp, hi⟩ := this
      simp only [hi]
      cases hfi : f inp with
      | panic => exact absurd hfi (hf inp)
      | fail => simp
      | later => simp
      | val v u =>
        simp only
        split
        · simp
        · exact ih v
  constructor
  · intro hnp
    unfold doMapping
    split
    · split
      · split
        · simp
        · exact h1 hnp _ _
      · exact h1 hnp _ _
      · simp
    · simp
  · intro hnp
    cases v with
    | list l =>
      rw [doSum]
      split
      · simp
      · exact h2 hnp _ _
    | map m => rw [doSum]; exact h2 hnp _ _
    | _ => simp [doSum]

/-- C39: operands: a failing operand fails, an operand not yet known postpones the expression, anything else but a lambda is rejected;
otherwise the mapping is executed. -/
theorem mapping_operands (src : String) (k : MapKind) (a : OpOut (Val E)) (l : OpOut (LamOperand E)) :
    (a = .fail ∨ l = .fail → evalMapping src k a l = .fail) ∧
    (a ≠ .fail → l ≠ .fail → (a = .later ∨ l = .later) → evalMapping src k a l = .later) ∧
    (∀ v, a = .val v → l = .val .other → evalMapping src k a l = .fail) ∧
    (∀ v np f, a = .val v → l = .val (.lam np f) → evalMapping src k a l = doMapping f np src k v) := by
  refine ⟨?_, ?_, ?_, ?_⟩
  · rintro (rfl | rfl)
    · rfl
    · cases a <;> rfl
  · intro h1 h2 h3
    cases a <;> cases l <;> simp_all [evalMapping]
  · rintro v rfl rfl; rfl
  · rintro v np f rfl rfl; rfl

/-- C39: the operands of `sum`: likewise -/
theorem sum_operands (a i : OpOut (Val E)) (l : OpOut (LamOperand E)) :
    (a = .fail ∨ i = .fail ∨ l = .fail → evalSum a i l = .fail) ∧
    (a ≠ .fail → i ≠ .fail → l ≠ .fail → (a = .later ∨ i = .later ∨ l = .later) → evalSum a i l = .later) ∧
    (∀ v w, a = .val v → i = .val w → l = .val .other → evalSum a i l = .fail) ∧
    (∀ v w np f, a = .val v → i = .val w → l = .val (.lam np f) → evalSum a i l = doSum f np w v) := by
  refine ⟨?_, ?_, ?_, ?_⟩
  · rintro (rfl | rfl | rfl)
    · rfl
    · cases a <;> rfl
    · cases a <;> cases i <;> rfl
  · intro h1 h2 h3 h4
    cases a <;> cases i <;> cases l <;> simp_all [evalSum]
  · rintro v w rfl rfl rfl; rfl
  · rintro v w np f rfl rfl rfl; rfl

theorem sumArgs_iff {np : Nat} (r : Val E) (e : EKey × Node E) (args : List (Val E)) :
    SumArgs r e np args ↔ sumInput np r e.1 e.2 = some args := by
  obtain ⟨key, n⟩ := e
  rcases np with _ | _ | _ | k
  · simp only [sumInput]
    constructor
    · intro h; cases h
    · intro h; simp at h
  · simp only [sumInput]
    constructor
    · intro h; cases h
    · intro h; simp at h
  · constructor
    · intro h; cases h; simp [sumInput, List.replicate]
    · intro h
      simp [sumInput, List.replicate] at h
      subst h
      exact .two
  · have hs := sumInput_more (E := E) k r key n
    rw [hs]
    constructor
    · intro h; cases h; rfl
    · intro h; cases h; exact .more

/-- the outcomes of `sum`, other than a value, in a loop over the entries -/
theorem sumLoop_stop {f : List (Val E) → LamOut E} {np : Nat} (hnp : 2 ≤ np) : ∀ (es : List (EKey × Node E)) (r : Val E),
    (sumLoop f np es r = .fail ↔ ∃ x e y r' args, es = x ++ e :: y ∧ Summed f x np r r' ∧ SumArgs r' e np args ∧ f args = .fail) ∧
    (sumLoop f np es r = .later ↔ ∃ x e y r' args, es = x ++ e :: y ∧ Summed f x np r r' ∧ SumArgs r' e np args ∧
      (f args = .later ∨ ∃ z u, f args = .val (.expr z) u)) := by
  intro es
  induction es with
  | nil =>
    intro r
    constructor
    · constructor
      · intro h; cases h
      · rintro ⟨x, e, y, _, _, h, _⟩
        cases x <;> cases h
    · constructor
      · intro h; cases h
      · rintro ⟨x, e, y, _, _, h, _⟩
        cases x <;> cases h
  | cons e es ih =>
    intro r
    obtain ⟨key, n⟩ := e
    obtain ⟨args, hargs⟩ : ∃ args, sumInput np r key n = some args := by
      unfold sumInput
      rw [if_neg (by omega)]
      exact ⟨_, rfl⟩
    have hsa : ∀ a, SumArgs r (key, n) np a ↔ a = args := by
      intro a
      rw [sumArgs_iff]
      simp only [hargs, Option.some.injEq]
      exact eq_comm
    have hcons : ∀ v u x r', f args = .val v u → (∀ z, v ≠ .expr z) → (Summed f ((key, n) :: x) np r r' ↔ Summed f x np v r') := by
      intro v u x r' hf hz
      rw [← sumLoop_val hnp, ← sumLoop_val hnp, sumLoop, hargs]
      simp only [hf]
      have : isExprVal v = false := by
        cases v <;> first | rfl | exact absurd rfl (hz _)
      rw [this]
      simp
    have hnone : (∀ v u, f args = .val v u → ∃ z, v = .expr z) → ∀ x r', ¬ Summed f ((key, n) :: x) np r r' := by
      intro hall x r' hs
      rw [← sumLoop_val hnp, sumLoop, hargs] at hs
      simp only at hs
      cases hf : f args with
      | val v u =>
        obtain ⟨z, rfl⟩ := hall v u hf
        rw [hf] at hs
        simp [isExprVal] at hs
      | _ => rw [hf] at hs; cases hs
    rw [sumLoop, hargs]
    simp only
    cases hf : f args with
    | fail =>
      have hno := hnone (by intro v u h; rw [hf] at h; cases h)
      constructor
      · simp only [true_iff]
        exact ⟨[], (key, n), es, r, args, rfl, .nil, (hsa _).2 rfl, hf⟩
      · simp only [reduceCtorEq, false_iff]
        rintro ⟨x, e, y, r', a, he, hs, ha, hl⟩
        cases x with
        | nil =>
          cases he
          cases hs
          rw [(hsa _).1 ha, hf] at hl
          simp at hl
        | cons b x =>
          cases he
          exact hno _ _ hs
    | later =>
      have hno := hnone (by intro v u h; rw [hf] at h; cases h)
      constructor
      · simp only [reduceCtorEq, false_iff]
        rintro ⟨x, e, y, r', a, he, hs, ha, hl⟩
        cases x with
        | nil =>
          cases he
          cases hs
          rw [(hsa _).1 ha, hf] at hl
          cases hl
        | cons b x =>
          cases he
          exact hno _ _ hs
      · simp only [true_iff]
        exact ⟨[], (key, n), es, r, args, rfl, .nil, (hsa _).2 rfl, .inl hf⟩
    | panic =>
      have hno := hnone (by intro v u h; rw [hf] at h; cases h)
      constructor
      · simp only [reduceCtorEq, false_iff]
        rintro ⟨x, e, y, r', a, he, hs, ha, hl⟩
        cases x with
        | nil =>
          cases he
          cases hs
          rw [(hsa _).1 ha, hf] at hl
          cases hl
        | cons b x =>
          cases he
          exact hno _ _ hs
      · simp only [reduceCtorEq, false_iff]
        rintro ⟨x, e, y, r', a, he, hs, ha, hl⟩
        cases x with
        | nil =>
          cases he
          cases hs
          rw [(hsa _).1 ha, hf] at hl
          simp at hl
        | cons b x =>
          cases he
          exact hno _ _ hs
    | val v u =>
      by_cases hz : ∃ z, v = .expr z
      · obtain ⟨z, rfl⟩ := hz
        have hno := hnone (by intro v u h; rw [hf] at h; cases h; exact ⟨z, rfl⟩)
        simp only [isExprVal, if_true, reduceCtorEq, false_iff, true_iff]
        constructor
        · rintro ⟨x, e, y, r', a, he, hs, ha, hl⟩
          cases x with
          | nil =>
            cases he
            cases hs
            rw [(hsa _).1 ha, hf] at hl
            cases hl
          | cons b x =>
            cases he
            exact hno _ _ hs
        · exact ⟨[], (key, n), es, r, args, rfl, .nil, (hsa _).2 rfl, .inr ⟨z, u, hf⟩⟩
      · have hz' : ∀ z, v ≠ .expr z := fun z h => hz ⟨z, h⟩
        have hx : isExprVal v = false := by
          cases v <;> first | rfl | exact absurd rfl (hz' _)
        simp only [hx, Bool.false_eq_true, if_false]
        obtain ⟨ih1, ih2⟩ := ih v
        rw [ih1, ih2]
        constructor
        · constructor
          · rintro ⟨x, e, y, r', a, rfl, hs, ha, hl⟩
            exact ⟨(key, n) :: x, e, y, r', a, rfl, (hcons v u x r' hf hz').2 hs, ha, hl⟩
          · rintro ⟨x, e, y, r', a, he, hs, ha, hl⟩
            cases x with
            | nil =>
              cases he
              cases hs
              rw [(hsa _).1 ha, hf] at hl
              cases hl
            | cons b x =>
              cases he
              exact ⟨x, e, y, r', a, rfl, (hcons v u x r' hf hz').1 hs, ha, hl⟩
        · constructor
          · rintro ⟨x, e, y, r', a, rfl, hs, ha, hl⟩
            exact ⟨(key, n) :: x, e, y, r', a, rfl, (hcons v u x r' hf hz').2 hs, ha, hl⟩
          · rintro ⟨x, e, y, r', a, he, hs, ha, hl⟩
            cases x with
            | nil =>
              cases he
              cases hs
              rw [(hsa _).1 ha, hf] at hl
              rcases hl with hl | ⟨z, w, hl⟩
              · cases hl
              · cases hl
                exact absurd rfl (hz' z)
            | cons b x =>
              cases he
              exact ⟨x, e, y, r', a, rfl, (hcons v u x r' hf hz').1 hs, ha, hl⟩

/-- C39: `sum` fails exactly if the lambda fails for some entry, with the result of the entries in front of it; it is postponed exactly
if the lambda is not yet evaluable for some entry, with the result of the entries in front of it. -/
theorem sum_stops {f : List (Val E) → LamOut E} {np : Nat} {initial v : Val E} {es : List (EKey × Node E)} (hv : Visit v es)
    (hok : ∀ m, v = .map m → MapOK m) (hnp : 2 ≤ np) (hnl : ∀ l, v = .list l → np ≤ 3) :
    (doSum f np initial v = .fail ↔
      ∃ x e y r args, es = x ++ e :: y ∧ Summed f x np initial r ∧ SumArgs r e np args ∧ f args = .fail) ∧
    (doSum f np initial v = .later ↔
      ∃ x e y r args, es = x ++ e :: y ∧ Summed f x np initial r ∧ SumArgs r e np args ∧
        (f args = .later ∨ ∃ z u, f args = .val (.expr z) u)) := by
  have h := sumLoop_stop (f := f) hnp es initial
  have he : doSum f np initial v = sumLoop f np es initial := by
    cases v with
    | list l =>
      have := hnl l rfl
      rw [doSum, if_neg (by omega), visit_list.1 hv]
    | map m => rw [doSum, (visit_map (hok m rfl)).1 hv]
    | _ => cases hv
  rw [he]
  exact h

/-! ### examples -/

/-- `lambda|x|->x * 2` for positive `x`, otherwise nil -/
def exDouble : List (Val Unit) → LamOut Unit
  | [.int i] => .val (if 0 < i then .int (i * 2) else .nil) false
  | _ => .fail
/-- `lambda|x|->x >= 2` -/
def exBig : List (Val Unit) → LamOut Unit
  | [.int i] => .val (.bool (decide (2 ≤ i))) false
  | _ => .fail
/-- `lambda|s,k,v|->s + v` -/
def exSum : List (Val Unit) → LamOut Unit
  | [.int s, .str _, .int v] => .val (.int (s + v)) false
  | _ => .fail

def exNode (i : Int) : Node Unit := Node.new (.int i) ""
def exMap : List (String × Node Unit) := [("b", exNode 2), ("a", exNode 1), ("c", exNode 3)]

example : Mappable .mapList 1 (.list [exNode 1, exNode 0, exNode 2]) := ⟨.mapList_list, by simp, by simp⟩
example : Mappable .selectMap 1 (.map exMap) := ⟨.selectMap_map, by intro m h; cases h; unfold MapOK; decide +kernel, by simp⟩

def outInts : MapOut Unit → Option (List (String × Int))
  | .val (.list l) => some (l.filterMap (fun n => match n.val with | .int i => some ("", i) | _ => none))
  | .val (.map m) => some (m.filterMap (fun e => match e.2.val with | .int i => some (e.1, i) | _ => none))
  | .val (.int i) => some [("=", i)]
  | _ => none

example : outInts (doMapping exDouble 1 "" .mapList (.list [exNode 1, exNode 0, exNode 2])) = some [("", 2), ("", 4)] := by decide +kernel
example : outInts (doMapping exDouble 1 "" .mapMap (.map exMap)) = some [("a", 2), ("b", 4), ("c", 6)] := by decide +kernel
example : outInts (doMapping exBig 1 "" .selectMap (.map exMap)) = some [("b", 2), ("c", 3)] := by decide +kernel
example : outInts (doMapping exBig 1 "" .selectList (.map exMap)) = some [("", 2), ("", 3)] := by decide +kernel
example : outInts (doSum exSum 3 (.int 10) (.map exMap)) = some [("=", 16)] := by decide +kernel

end Spiff
