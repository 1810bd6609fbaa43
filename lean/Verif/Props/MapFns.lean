import Verif.Model.ListFns
import Verif.Spec.MapFns
import Verif.Props.Comparison
/-
C36 (list_to_map, keys, makemap), C37 (map concatenation, deepmerge).
-/
namespace Spiff
open Spec
variable {E : Type}

section gen
variable {α : Type}

theorem mget_mdel (m : List (String × α)) (k f : String) : mget (mdel m k) f = if f = k then none else mget m f := by
  induction m with
  | nil => simp [mdel, mget]
  | cons e r ih =>
    obtain ⟨k', v⟩ := e
    unfold mdel at ih ⊢
    rw [List.filter_cons]
    by_cases h : k' = k
    · simp only [h, ne_eq, not_true_eq_false, decide_false, Bool.false_eq_true, if_false, ih]
      split
      · rfl
      · next hf => simp [mget, Ne.symm hf]
    · simp only [ne_eq, h, not_false_eq_true, decide_true, if_true, mget, ih]
      split
      · next hf => subst hf; simp [h]
      · rfl

theorem mem_mkeys_iff (m : List (String × α)) (k : String) : k ∈ mkeys m ↔ ∃ v, mget m k = some v := by
  rw [← not_iff_not, ← mget_none_iff]
  rcases mget m k <;> simp

/-- the result of setting a list of fields one after the other -/
def setAll (acc : List (String × α)) (l : List (String × α)) : List (String × α) := l.foldl (fun r e => mset r e.1 e.2) acc

theorem setAll_get (l acc : List (String × α)) (k : String) :
    (∀ v, LastSuch l (fun e => e.1 = k) (k, v) → mget (setAll acc l) k = some v) ∧
    (k ∉ mkeys l → mget (setAll acc l) k = mget acc k) := by
  induction l generalizing acc with
  | nil =>
    refine ⟨?_, fun _ => rfl⟩
    rintro v ⟨a, b, h, -⟩
    simp at h
  | cons e l ih =>
    obtain ⟨k', v'⟩ := e
    have hs : setAll acc ((k', v') :: l) = setAll (mset acc k' v') l := rfl
    constructor
    · rintro v ⟨a, b, h, -, hb⟩
      rw [hs]
      cases a with
      | nil =>
        simp only [List.nil_append, List.cons.injEq, Prod.mk.injEq] at h
        obtain ⟨⟨rfl, rfl⟩, rfl⟩ := h
        rw [(ih _).2, mget_mset_self]
        intro hk
        obtain ⟨e, he, hek⟩ := List.mem_map.1 hk
        exact hb e he hek
      | cons x a =>
        simp only [List.cons_append, List.cons.injEq] at h
        obtain ⟨-, rfl⟩ := h
        exact (ih _).1 v ⟨a, b, rfl, rfl, hb⟩
    · intro hk
      rw [hs, (ih _).2 (fun h => hk (by simp [mkeys] at h ⊢; exact .inr h)), mget_mset_ne]
      intro h
      exact hk (by simp [mkeys, h])

theorem setAll_keys (l acc : List (String × α)) (k : String) : k ∈ mkeys (setAll acc l) ↔ k ∈ mkeys acc ∨ k ∈ mkeys l := by
  induction l generalizing acc with
  | nil => simp [setAll, mkeys]
  | cons e l ih =>
    have hs : setAll acc (e :: l) = setAll (mset acc e.1 e.2) l := rfl
    rw [hs, ih, mem_mkeys_mset]
    simp only [mkeys, List.map_cons, List.mem_cons]
    tauto

theorem setAll_ok (l acc : List (String × α)) (h : MapOK acc) : MapOK (setAll acc l) := by
  induction l generalizing acc with
  | nil => exact h
  | cons e l ih => exact ih _ (MapOK_mset h _ _)

/-- in a Go map the entry of a key is the last one -/
theorem last_of_ok {m : List (String × α)} (hm : MapOK m) {k : String} {v : α} (h : mget m k = some v) :
    LastSuch m (fun e => e.1 = k) (k, v) := by
  obtain ⟨a, b, rfl⟩ := List.append_of_mem (mget_some_mem h)
  refine ⟨a, b, rfl, rfl, ?_⟩
  intro e he hk
  simp only [MapOK, mkeys, List.map_append, List.map_cons, List.nodup_append, List.nodup_cons] at hm
  exact hm.2.1.1 (List.mem_map.2 ⟨e, he, hk⟩)

theorem setAll_ok_get {m : List (String × α)} (hm : MapOK m) (acc : List (String × α)) (k : String) :
    mget (setAll acc m) k = (mget m k).or (mget acc k) := by
  rcases h : mget m k with _ | v
  · rw [(setAll_get m acc k).2 (mget_none_iff.1 h)]; rfl
  · rw [(setAll_get m acc k).1 v (last_of_ok hm h)]; rfl
end gen

/-! ### list_to_map -/

/-- `list_to_map` as a sequence of field assignments -/
theorem listToMap_eq (key : String) (l : List (Node E)) : ∀ acc,
    (∀ r, listToMap key acc l = some r → ∃ es : List (String × Node E), r = setAll acc es ∧
      List.Forall₂ (fun n e => KeyOf key n e.1 ∧ Without key n e.2) l es) ∧
    (listToMap key acc l = none ↔ ∃ n ∈ l, ∀ k, ¬ KeyOf key n k) := by
  induction l with
  | nil =>
    intro acc
    refine ⟨?_, by simp [listToMap]⟩
    intro r h
    simp only [listToMap, Option.some.injEq] at h
    exact ⟨[], h.symm, List.Forall₂.nil⟩
  | cons n l ih =>
    intro acc
    by_cases hk : ∃ k, KeyOf key n k
    · obtain ⟨k, m, kn, h1, h2, h3⟩ := hk
      have hstep : listToMap key acc (n :: l) = listToMap key (mset acc k (n.withVal (.map (mdel m key)))) l := by
        simp only [listToMap, h1, h2, h3]
      have hw : Without key n (n.withVal (.map (mdel m key))) := by
        cases n with
        | mk v s a =>
          simp only [Node.val_mk] at h1
          subst h1
          refine ⟨⟨_, rfl⟩, rfl, rfl, ?_, ?_⟩
          · simp [field, child, Node.withVal, mget_mdel]
          · intro f hf
            simp [field, child, Node.withVal, mget_mdel, hf]
      rw [hstep]
      constructor
      · intro r hr
        obtain ⟨es, he, hes⟩ := (ih _).1 r hr
        exact ⟨(k, _) :: es, he, List.Forall₂.cons ⟨⟨m, kn, h1, h2, h3⟩, hw⟩ hes⟩
      · rw [(ih _).2]
        constructor
        · rintro ⟨n', h, h'⟩; exact ⟨n', by simp [h], h'⟩
        · rintro ⟨n', h, h'⟩
          rcases List.mem_cons.1 h with rfl | h
          · exact absurd ⟨m, kn, h1, h2, h3⟩ (h' k)
          · exact ⟨n', h, h'⟩
    · have hk' : ∀ k, ¬ KeyOf key n k := by simpa using hk
      have hnone : listToMap key acc (n :: l) = none := by
        unfold listToMap
        split
        · next m hm =>
          split
          · next kn hkn =>
            split
            · next s hs => exact absurd ⟨m, kn, hm, hkn, hs⟩ (hk' s)
            · rfl
          · rfl
        · rfl
      rw [hnone]
      refine ⟨fun r h => (by cases h), ?_⟩
      simp only [true_iff]
      exact ⟨n, by simp, hk'⟩

theorem keyOf_unique {key : String} {n : Node E} {k k' : String} (h : KeyOf key n k) (h' : KeyOf key n k') : k = k' := by
  obtain ⟨m, kn, h1, h2, h3⟩ := h
  obtain ⟨m', kn', h1', h2', h3'⟩ := h'
  rw [h1] at h1'
  cases h1'
  rw [h2] at h2'
  cases h2'
  rw [h3] at h3'
  cases h3'
  rfl

theorem last_forall₂ {α β : Type} {R : α → β → Prop} {l : List α} {es : List β} (h : List.Forall₂ R l es)
    {p : α → Prop} {q : β → Prop} (hpq : ∀ a b, R a b → (p a ↔ q b)) {x : α} (hx : LastSuch l p x) :
    ∃ y, R x y ∧ LastSuch es q y := by
  induction h with
  | nil => obtain ⟨a, b, h, -⟩ := hx; simp at h
  | @cons a b l es hab hf ih =>
    obtain ⟨u, v, h, hp, hn⟩ := hx
    cases u with
    | nil =>
      simp only [List.nil_append, List.cons.injEq] at h
      obtain ⟨rfl, rfl⟩ := h
      refine ⟨b, hab, [], es, rfl, (hpq _ _ hab).1 hp, ?_⟩
      intro y hy hq
      have : ∀ {l : List α} {es : List β}, List.Forall₂ R l es → y ∈ es → ∃ x ∈ l, R x y := by
        intro l es h
        induction h with
        | nil => simp
        | cons hxy _ ih =>
          intro hm
          rcases List.mem_cons.1 hm with rfl | hm
          · exact ⟨_, by simp, hxy⟩
          · obtain ⟨x, h1, h2⟩ := ih hm
            exact ⟨x, by simp [h1], h2⟩
      obtain ⟨x, h1, h2⟩ := this hf hy
      exact hn x h1 ((hpq _ _ h2).2 hq)
    | cons c u =>
      simp only [List.cons_append, List.cons.injEq] at h
      obtain ⟨rfl, rfl⟩ := h
      obtain ⟨y, h1, a, b, h2, h3⟩ := ih ⟨u, v, rfl, hp, hn⟩
      exact ⟨y, h1, _ :: a, b, by rw [h2]; rfl, h3⟩

/-- C36: `list_to_map(l, key)` fails exactly if some entry has no string field `key`; otherwise its keys are exactly the key
field values and a key denotes the last entry with that key, without the key field. -/
theorem list_to_map_spec (key infoKey : String) (l : List (Node E)) :
    ((∃ n ∈ l, ∀ k, ¬ KeyOf key n k) → funcListToMap infoKey [.list l, .str key] = .err) ∧
    ((∀ n ∈ l, ∃ k, KeyOf key n k) → ∃ m, funcListToMap infoKey [.list l, .str key] = .ok (.map m) ∧ MapOK m ∧
      (∀ k, k ∈ mkeys m ↔ ∃ n ∈ l, KeyOf key n k) ∧
      ∀ k n, LastSuch l (fun x => KeyOf key x k) n → ∃ v, mget m k = some v ∧ Without key n v) := by
  constructor
  · intro h
    have := ((listToMap_eq key l []).2).2 h
    simp [funcListToMap, this]
  · intro h
    obtain ⟨m, hm⟩ : ∃ m, listToMap key [] l = some m := by
      rcases hx : listToMap key [] l with _ | m
      · obtain ⟨n, hn, h'⟩ := ((listToMap_eq key l []).2).1 hx
        obtain ⟨k, hk⟩ := h n hn
        exact absurd hk (h' k)
      · exact ⟨m, rfl⟩
    obtain ⟨es, rfl, hes⟩ := (listToMap_eq key l []).1 m hm
    refine ⟨_, by simp [funcListToMap, hm], setAll_ok es [] (by simp [MapOK, mkeys]), ?_, ?_⟩
    · intro k
      rw [setAll_keys]
      simp only [mkeys, List.map_nil, List.not_mem_nil, false_or]
      clear hm h
      induction hes with
      | nil => simp
      | cons hab _ ih =>
        simp only [List.map_cons, List.mem_cons, ih, exists_eq_or_imp]
        refine or_congr_left ?_
        constructor
        · rintro rfl; exact hab.1
        · intro h; exact keyOf_unique h hab.1
    · intro k n hn
      obtain ⟨e, he, hl⟩ := last_forall₂ hes (q := fun e => e.1 = k) (by
        intro a b hab
        constructor
        · intro h; exact keyOf_unique hab.1 h
        · rintro rfl; exact hab.1) hn
      have hek : e.1 = k := hl.choose_spec.choose_spec.2.1
      obtain ⟨k', v⟩ := e
      simp only at hek
      subst hek
      exact ⟨v, (setAll_get es [] k').1 v hl, he.2⟩

/-- with one argument the key is the key name of the list (default `name`) -/
theorem list_to_map_default (infoKey : String) (l : List (Node E)) :
    funcListToMap infoKey [.list l] = funcListToMap infoKey [.list l, .str (if infoKey = "" then "name" else infoKey)] := rfl

/-! ### keys -/

theorem insertStr_perm (a : String) (l : List String) : (insertStr a l).Perm (a :: l) := by
  induction l with
  | nil => exact List.Perm.refl _
  | cons b r ih =>
    unfold insertStr
    split
    · exact List.Perm.refl _
    · exact (List.Perm.cons b ih).trans (List.Perm.swap a b r)

theorem sortStr_perm (l : List String) : (sortStr l).Perm l := by
  induction l with
  | nil => exact List.Perm.refl _
  | cons a r ih => exact (insertStr_perm a _).trans (List.Perm.cons a ih)

theorem insertStr_sorted (a : String) (l : List String) (h : l.Pairwise (· ≤ ·)) : (insertStr a l).Pairwise (· ≤ ·) := by
  induction l with
  | nil => simp [insertStr]
  | cons b r ih =>
    have hb := List.pairwise_cons.1 h
    unfold insertStr
    split
    · next hab =>
      rw [List.pairwise_cons]
      refine ⟨?_, h⟩
      intro y hy
      rcases List.mem_cons.1 hy with rfl | hy
      · exact hab
      · exact String.le_trans hab (hb.1 y hy)
    · next hab =>
      rw [List.pairwise_cons]
      refine ⟨?_, ih hb.2⟩
      intro y hy
      rcases List.mem_cons.1 ((insertStr_perm a r).subset hy) with rfl | hy
      · exact (String.le_total b y).resolve_right hab
      · exact hb.1 y hy

theorem sortStr_sorted (l : List String) : (sortStr l).Pairwise (· ≤ ·) := by
  induction l with
  | nil => simp [sortStr]
  | cons a r ih => exact insertStr_sorted a _ ih

/-- two sorted permutations of each other are equal -/
theorem sorted_unique {l l' : List String} (hp : l.Perm l') (h : l.Pairwise (· ≤ ·)) (h' : l'.Pairwise (· ≤ ·)) : l = l' :=
  hp.eq_of_pairwise (fun _ _ _ _ => String.le_antisymm) h h'

/-- the sorted keys do not depend on the iteration order -/
theorem sortedKeys_perm {α : Type} {m m' : List (String × α)} (h : m.Perm m') : sortedKeys m = sortedKeys m' :=
  sorted_unique ((sortStr_perm _).trans ((h.map Prod.fst).trans (sortStr_perm _).symm)) (sortStr_sorted _) (sortStr_sorted _)

/-- C36: `keys` yields every key of the map exactly once, in ascending order. -/
theorem keys_spec (src : String) (m : List (String × Node E)) (hm : MapOK m) :
    ∃ ks : List String, funcKeys src [.map m] = .ok (.list (ks.map (fun k => Node.new (.str k) src))) ∧
      ks.Nodup ∧ ks.Pairwise (· ≤ ·) ∧ ∀ k, k ∈ ks ↔ k ∈ mkeys m :=
  ⟨sortedKeys m, rfl, (sortStr_perm _).nodup_iff.2 hm, sortStr_sorted _, fun _ => (sortStr_perm _).mem_iff⟩

/-- ... independent of the iteration order of the map -/
theorem keys_order_independent (src : String) {m m' : List (String × Node E)} (h : m.Perm m') :
    funcKeys src [.map m] = funcKeys src [.map m'] := by
  simp [funcKeys, sortedKeys_perm h]

/-! ### makemap -/

/-- the text of a simple value used as key -/
def KeyText (v : Val E) (s : String) : Prop := v = .str s ∨ (∃ i : Int, v = .int i ∧ s = toString i) ∨
  v = .bool true ∧ s = "true" ∨ v = .bool false ∧ s = "false"

theorem keyString_iff (v : Val E) (s : String) : keyString v = some s ↔ KeyText v s := by
  unfold KeyText
  cases v with
  | bool b => cases b <;> simp [keyString, showBool, eq_comm]
  | _ => simp [keyString, eq_comm]

/-- `{key: k, value: v}` -/
def Pair (n : Node E) (k : String) (v : Node E) : Prop :=
  ∃ kn, field n "key" = some kn ∧ KeyText kn.val k ∧ field n "value" = some v

theorem makemapList_eq (l : List (Node E)) : ∀ acc,
    (∀ es : List (String × Node E), List.Forall₂ (fun n e => Pair n e.1 e.2) l es →
      makemapList acc l = some (setAll acc es)) ∧
    ((∃ n ∈ l, ∀ k v, ¬ Pair n k v) → makemapList acc l = none) := by
  induction l with
  | nil =>
    intro acc
    refine ⟨?_, by simp⟩
    intro es h
    cases h
    rfl
  | cons n l ih =>
    intro acc
    have hstep : ∀ k v, Pair n k v → makemapList acc (n :: l) = makemapList (mset acc k v) l := by
      rintro k v ⟨kn, h1, h2, h3⟩
      unfold field at h1 h3
      rw [makemapList.eq_2]
      split
      · next m hm =>
        simp only [hm, child] at h1 h3
        simp only [h1, Option.bind_some, (keyString_iff _ _).2 h2, h3]
      · next hm =>
        exfalso
        cases hv : n.val <;> simp_all [child]
    constructor
    · intro es h
      cases h with
      | @cons _ e _ es' h1 h2 =>
        rw [hstep e.1 e.2 h1, (ih _).1 es' h2]
        rfl
    · rintro ⟨n', hn', hp⟩
      rcases List.mem_cons.1 hn' with rfl | hn'
      · unfold makemapList
        split
        · next m hm =>
          split
          · next k v hk hv =>
            exfalso
            rcases hkn : mget m "key" with _ | kn
            · simp [hkn] at hk
            · rw [hkn, Option.bind_some, keyString_iff] at hk
              exact hp k v ⟨kn, by simp [field, hm, child, hkn], hk, by simp [field, hm, child, hv]⟩
          · rfl
        · rfl
      · by_cases h : ∃ k v, Pair n k v
        · obtain ⟨k, v, h⟩ := h
          rw [hstep k v h]
          exact (ih _).2 ⟨n', hn', hp⟩
        · have h' : ∀ k v, ¬ Pair n k v := fun k v hh => h ⟨k, v, hh⟩
          unfold makemapList
          split
          · next m hm =>
            split
            · next k v hk hv =>
              exfalso
              rcases hkn : mget m "key" with _ | kn
              · simp [hkn] at hk
              · rw [hkn, Option.bind_some, keyString_iff] at hk
                exact h' k v ⟨kn, by simp [field, hm, child, hkn], hk, by simp [field, hm, child, hv]⟩
            · rfl
          · rfl

/-- what a sequence of assignments yields: the keys are the assigned ones, the last assignment of a key counts -/
def Assigned {α : Type} (es m : List (String × α)) : Prop :=
  (∀ k, k ∈ mkeys m ↔ ∃ v, (k, v) ∈ es) ∧ ∀ k v, LastSuch es (fun e => e.1 = k) (k, v) → mget m k = some v

theorem assigned_setAll {α : Type} (es : List (String × α)) : Assigned es (setAll [] es) := by
  refine ⟨?_, fun k v h => (setAll_get es [] k).1 v h⟩
  intro k
  rw [setAll_keys]
  simp [mkeys]

/-- C36: `makemap` of a list of `{key: .., value: ..}` maps -/
theorem makemap_list_spec (src : String) (l : List (Node E)) :
    (∀ es : List (String × Node E), List.Forall₂ (fun n e => Pair n e.1 e.2) l es →
      ∃ m, funcMakemap src [.list l] = .ok (.map m) ∧ Assigned es m) ∧
    ((∃ n ∈ l, ∀ k v, ¬ Pair n k v) → funcMakemap src [.list l] = .err) := by
  constructor
  · intro es h
    exact ⟨_, by simp [funcMakemap, (makemapList_eq l []).1 es h], assigned_setAll es⟩
  · intro h
    simp [funcMakemap, (makemapList_eq l []).2 h]

/-- the arguments `k1, v1, k2, v2, ...` -/
def flat : List (Val E × Val E) → List (Val E)
  | [] => []
  | (k, v) :: r => k :: v :: flat r

theorem makemapPairs_eq (src : String) (ps : List (Val E × Val E)) : ∀ acc (es : List (String × Node E)),
    List.Forall₂ (fun p e => KeyText p.1 e.1 ∧ e.2 = Node.new p.2 src) ps es →
    makemapPairs src acc (flat ps) = some (setAll acc es) := by
  induction ps with
  | nil => intro acc es h; cases h; rfl
  | cons p ps ih =>
    intro acc es h
    cases h with
    | @cons _ e _ es' h1 h2 =>
      obtain ⟨k, v⟩ := p
      obtain ⟨ek, ev⟩ := e
      simp only at h1
      obtain ⟨hk, rfl⟩ := h1
      simp only [flat, makemapPairs, (keyString_iff _ _).2 hk]
      rw [ih _ _ h2]
      rfl

/-- C36: `makemap(k1, v1, k2, v2, ...)` -/
theorem makemap_pairs_spec (src : String) (ps : List (Val E × Val E)) (es : List (String × Node E))
    (h : List.Forall₂ (fun p e => KeyText p.1 e.1 ∧ e.2 = Node.new p.2 src) ps es) :
    ∃ m, funcMakemap src (flat ps) = .ok (.map m) ∧ Assigned es m := by
  have := makemapPairs_eq src ps [] es h
  refine ⟨_, ?_, assigned_setAll es⟩
  unfold funcMakemap
  rcases ps with _ | ⟨⟨k, v⟩, ps⟩
  · simp [flat] at this ⊢
    simp [this]
  · simp only [flat] at this ⊢
    simp only [this]

/-- an odd number of arguments is rejected (a single list excepted) -/
theorem makemap_odd (src : String) (ps : List (Val E × Val E)) (x : Val E) (h : ps ≠ []) :
    funcMakemap src (flat ps ++ [x]) = .err := by
  have key : ∀ (ps : List (Val E × Val E)) acc, makemapPairs src acc (flat ps ++ [x]) = none := by
    intro ps
    induction ps with
    | nil => intro acc; rfl
    | cons p ps ih =>
      intro acc
      obtain ⟨k, v⟩ := p
      simp only [flat, List.cons_append, makemapPairs]
      split
      · exact ih _
      · rfl
  rcases ps with _ | ⟨⟨k, v⟩, ps⟩
  · exact absurd rfl h
  · have := key ((k, v) :: ps) []
    simp only [flat, List.cons_append] at this ⊢
    simp only [funcMakemap, this]

/-! ### concatenation of maps -/

/-- C37: the concatenation of two maps has the fields of both, those of the second one win. -/
theorem concat_maps (src : String) (a b : List (String × Node E)) (hb : MapOK b) :
    ∃ m, concatVals src (.map a) (.map b) = .ok (.map m) ∧ (MapOK a → MapOK m) ∧
      ∀ k, mget m k = (mget b k).or (mget a k) :=
  ⟨concatMap a b, rfl, setAll_ok b a, setAll_ok_get hb a⟩

/-! ### deepmerge -/

theorem deepNode_old (old : Option (Node E)) (n : Node E) (h : ¬ IsMap n.val ∨ ∀ o, old = some o → ¬ IsMap o.val) :
    deepNode old n = n := by
  rcases n with ⟨v, s, a⟩
  unfold deepNode
  cases v <;> simp only [deepVal]
  split
  · split
    · next o _ m hm =>
      exfalso
      rcases h with h | h
      · exact h ⟨_, rfl⟩
      · exact h o rfl ⟨_, hm⟩
    · rfl
  · rfl

theorem deepNode_maps (o n : Node E) (om nm : List (String × Node E)) (ho : o.val = .map om) (hn : n.val = .map nm) :
    deepNode (some o) n = Node.new (.map (deepmerge om nm)) "<deepmerge>" := by
  rcases n with ⟨v, s, a⟩
  simp only [Node.val_mk] at hn
  subst hn
  simp [deepNode, deepVal, ho]

theorem deepmerge_other (m r : List (String × Node E)) (k : String) (h : k ∉ mkeys m) : mget (deepmerge r m) k = mget r k := by
  induction m generalizing r with
  | nil => simp [deepmerge]
  | cons e m ih =>
    obtain ⟨k', n⟩ := e
    simp only [mkeys, List.map_cons, List.mem_cons, not_or] at h
    rw [deepmerge, ih _ h.2, mget_mset_ne _ _ h.1]

/-- C37: the fields of a deep merge -/
theorem deepmerge_get (m r : List (String × Node E)) (hm : MapOK m) (k : String) :
    mget (deepmerge r m) k = match mget m k with
      | none => mget r k
      | some n => some (deepNode (mget r k) n) := by
  induction m generalizing r with
  | nil => simp [deepmerge, mget]
  | cons e m ih =>
    obtain ⟨k', n⟩ := e
    have hm' : k' ∉ mkeys m ∧ MapOK m := by simpa [MapOK, mkeys] using hm
    rw [deepmerge]
    by_cases hk : k' = k
    · subst hk
      rw [deepmerge_other _ _ _ hm'.1, mget_mset_self]
      simp [mget]
    · rw [ih _ hm'.2]
      simp only [mget, hk, if_false]
      rw [mget_mset_ne _ _ (Ne.symm hk)]

/-- C37: Fields of a deep merge: a field of one map only is taken over; of two values the second one wins, unless
both are maps: then they are merged themselves. -/
theorem deepmerge_spec (r m : List (String × Node E)) (hm : MapOK m) (k : String) :
    (mget m k = none → mget (deepmerge r m) k = mget r k) ∧
    (∀ n, mget m k = some n → mget r k = none → mget (deepmerge r m) k = some n) ∧
    (∀ n o, mget m k = some n → mget r k = some o → (¬ IsMap n.val ∨ ¬ IsMap o.val) → mget (deepmerge r m) k = some n) ∧
    (∀ n o nm om, mget m k = some n → mget r k = some o → n.val = .map nm → o.val = .map om →
      ∃ x, mget (deepmerge r m) k = some x ∧ x.val = .map (deepmerge om nm)) := by
  rw [deepmerge_get m r hm]
  refine ⟨?_, ?_, ?_, ?_⟩
  · intro h; rw [h]
  · intro n h h'; rw [h, h']; simp only [deepNode_old none n (.inr (by simp))]
  · intro n o h h' hh
    rw [h, h']
    simp only [Option.some.injEq]
    exact deepNode_old _ n (hh.imp id (fun hh o' ho' => by cases ho'; exact hh))
  · intro n o nm om h h' hn ho
    rw [h, h']
    exact ⟨_, rfl, by rw [deepNode_maps o n om nm ho hn]; rfl⟩

theorem deepmerge_keys (m r : List (String × Node E)) (k : String) : k ∈ mkeys (deepmerge r m) ↔ k ∈ mkeys r ∨ k ∈ mkeys m := by
  induction m generalizing r with
  | nil => simp [deepmerge, mkeys]
  | cons e m ih =>
    obtain ⟨k', n⟩ := e
    rw [deepmerge, ih, mem_mkeys_mset]
    simp only [mkeys, List.map_cons, List.mem_cons]
    tauto

theorem deepmerge_ok (m r : List (String × Node E)) (h : MapOK r) : MapOK (deepmerge r m) := by
  induction m generalizing r with
  | nil => simpa [deepmerge] using h
  | cons e m ih =>
    obtain ⟨k', n⟩ := e
    rw [deepmerge]
    exact ih _ (MapOK_mset h _ _)

/-- C37: the keys of `deepmerge(m1, m2, ...)` are the union of the keys -/
theorem funcDeepmerge_keys (ms : List (List (String × Node E))) (h : ms ≠ []) :
    ∃ m, funcDeepmerge (ms.map Val.map) = .ok (.map m) ∧ MapOK m ∧ m = ms.foldl deepmerge [] ∧
      ∀ k, k ∈ mkeys m ↔ ∃ x ∈ ms, k ∈ mkeys x := by
  have hg : getMapList (ms.map Val.map) = some ms := by
    have hmap : (ms.map Val.map).mapM (getMap (E := E)) = some ms := by
      clear h
      induction ms with
      | nil => rfl
      | cons a ms ih => simp [List.mapM_cons, ih, getMap]
    rcases ms with _ | ⟨a, _ | ⟨b, ms⟩⟩
    · exact absurd rfl h
    · exact hmap
    · exact hmap
  have hok : ∀ (ms : List (List (String × Node E))) r, MapOK r → MapOK (ms.foldl deepmerge r) := by
    intro ms
    induction ms with
    | nil => intro r h; exact h
    | cons a ms ih => intro r h; exact ih _ (deepmerge_ok a r h)
  have hk : ∀ (ms : List (List (String × Node E))) r k, k ∈ mkeys (ms.foldl deepmerge r) ↔ k ∈ mkeys r ∨ ∃ x ∈ ms, k ∈ mkeys x := by
    intro ms
    induction ms with
    | nil => intro r k; simp
    | cons a ms ih => intro r k; rw [List.foldl_cons, ih, deepmerge_keys]; simp [or_assoc]
  refine ⟨ms.foldl deepmerge [], ?_, hok ms [] (by simp [MapOK, mkeys]), rfl, ?_⟩
  · unfold funcDeepmerge
    rw [if_neg (by simpa using h), hg]
  · intro k; rw [hk]; simp [mkeys]

/-- C37: the right-most definition wins: a field that is no map in the last map defining it is taken from there -/
theorem deepmerge_rightmost (ms : List (List (String × Node E))) (hok : ∀ m ∈ ms, MapOK m) (k : String)
    (m : List (String × Node E)) (n : Node E) (hl : LastSuch ms (fun x => k ∈ mkeys x) m) (hn : mget m k = some n)
    (hs : ¬ IsMap n.val) : mget (ms.foldl deepmerge []) k = some n := by
  obtain ⟨a, b, rfl, -, hb⟩ := hl
  rw [List.foldl_append, List.foldl_cons]
  generalize a.foldl deepmerge [] = r
  have h0 : mget (deepmerge r m) k = some n := by
    rw [deepmerge_get m r (hok m (by simp)), hn]
    simp only [Option.some.injEq]
    exact deepNode_old _ n (.inl hs)
  generalize deepmerge r m = r' at h0
  clear hok
  induction b generalizing r' with
  | nil => exact h0
  | cons x b ih =>
    rw [List.foldl_cons]
    refine ih (fun y hy => hb y (by simp [hy])) _ ?_
    rw [deepmerge_other x r' k (hb x (by simp)), h0]

/-- C37: the empty map is a unit -/
theorem deepmerge_unit (m : List (String × Node E)) (hm : MapOK m) :
    deepmerge m [] = m ∧ ∀ k, mget (deepmerge [] m) k = mget m k := by
  refine ⟨rfl, fun k => ?_⟩
  rw [deepmerge_get m [] hm]
  rcases mget m k with _ | n
  · rfl
  · simp only [mget, deepNode_old none n (.inr (by simp))]

/-- ... but deepmerge is not associative -/
theorem deepmerge_not_assoc : ∃ a b c : List (String × Node E),
    mget (deepmerge (deepmerge a b) c) "k" ≠ mget (deepmerge a (deepmerge b c)) "k" := by
  refine ⟨[("k", Node.new (.map [("x", Node.new (.int 1) "")]) "")], [("k", Node.new (.int 5) "")],
    [("k", Node.new (.map [("y", Node.new (.int 2) "")]) "")], ?_⟩
  have e1 : mget (deepmerge (deepmerge [("k", Node.new (.map [("x", Node.new (.int 1) "")]) "")] [("k", Node.new (.int 5) "")])
    [("k", Node.new (.map [("y", Node.new (.int 2) "")]) "")]) "k" =
      some (Node.new (.map [("y", (Node.new (.int 2) "" : Node E))]) "") := rfl
  have e2 : mget (deepmerge [("k", Node.new (.map [("x", Node.new (.int 1) "")]) "")] (deepmerge [("k", Node.new (.int 5) "")]
    [("k", Node.new (.map [("y", Node.new (.int 2) "")]) "")])) "k" =
      some (Node.new (.map [("x", (Node.new (.int 1) "" : Node E)), ("y", Node.new (.int 2) "")]) "<deepmerge>") := rfl
  rw [e1, e2]
  simp [Node.new]

/-! order independence -/

theorem agree_refl_kind {H : Node E → Node E → Prop} {x y : Node E} (h : AgreeBy H x y) : H x y := (agree_step.1 h).1

theorem sameContent_map {m m' : List (String × Node E)} {s s' a a'} :
    SameContent (.mk (.map m) s a) (.mk (.map m') s' a') ↔ ∀ k, Both SameContent (mget m k) (mget m' k) := by
  unfold SameContent
  rw [agree_step]
  constructor
  · rintro ⟨-, h⟩ k; exact h (.key k)
  · intro h
    refine ⟨trivial, fun i => ?_⟩
    cases i with
    | key k => exact h k
    | idx i => trivial
    | body => trivial

theorem sameContent_isMap {x y : Node E} (h : SameContent x y) : IsMap x.val ↔ IsMap y.val := by
  have := agree_refl_kind h
  unfold IsMap
  cases hx : x.val <;> cases hy : y.val <;> simp_all [SameKind]

/-- C37: The result of a deep merge does not depend on the iteration order of the maps (at any level): maps of the same
content yield a map of the same content. -/
theorem deepmerge_content (n : Node E) : ∀ (n' : Node E) (r r' m m' : List (String × Node E)),
    n.val = .map m → n'.val = .map m' → GoMaps n → GoMaps n' →
    (∀ k, Both SameContent (mget r k) (mget r' k)) → (∀ k, Both SameContent (mget m k) (mget m' k)) →
    ∀ k, Both SameContent (mget (deepmerge r m) k) (mget (deepmerge r' m') k) := by
  refine Node.rec
    (motive_1 := fun v => ∀ (n' : Node E) (r r' m m' : List (String × Node E)),
      v = .map m → n'.val = .map m' → GoMapsV v → GoMaps n' →
      (∀ k, Both SameContent (mget r k) (mget r' k)) → (∀ k, Both SameContent (mget m k) (mget m' k)) →
      ∀ k, Both SameContent (mget (deepmerge r m) k) (mget (deepmerge r' m') k))
    (motive_2 := fun n => ∀ (n' : Node E) (r r' m m' : List (String × Node E)),
      n.val = .map m → n'.val = .map m' → GoMaps n → GoMaps n' →
      (∀ k, Both SameContent (mget r k) (mget r' k)) → (∀ k, Both SameContent (mget m k) (mget m' k)) →
      ∀ k, Both SameContent (mget (deepmerge r m) k) (mget (deepmerge r' m') k))
    (motive_3 := fun _ => True)
    (motive_4 := fun l => ∀ e ∈ l, ∀ (n' : Node E) (r r' m m' : List (String × Node E)),
      e.2.val = .map m → n'.val = .map m' → GoMaps e.2 → GoMaps n' →
      (∀ k, Both SameContent (mget r k) (mget r' k)) → (∀ k, Both SameContent (mget m k) (mget m' k)) →
      ∀ k, Both SameContent (mget (deepmerge r m) k) (mget (deepmerge r' m') k))
    (motive_5 := fun e => ∀ (n' : Node E) (r r' m m' : List (String × Node E)),
      e.2.val = .map m → n'.val = .map m' → GoMaps e.2 → GoMaps n' →
      (∀ k, Both SameContent (mget r k) (mget r' k)) → (∀ k, Both SameContent (mget m k) (mget m' k)) →
      ∀ k, Both SameContent (mget (deepmerge r m) k) (mget (deepmerge r' m') k))
    ?_ ?_ ?_ ?_ ?_ ?_ ?_ ?_ ?_ ?_ ?_ ?_ ?_ ?_ ?_ ?_ n
  case refine_7 =>
    intro l ih n' r r' m m' hv hn' hg hg' hr hm k
    obtain rfl : l = m := by injection hv
    rename' l => m
    have hg2 : MapOK m ∧ GoMapsM m := hg
    have hg2' : MapOK m' ∧ GoMapsM m' := by
      cases n' with | mk v s a => simp only [Node.val_mk] at hn'; subst hn'; exact hg'
    rw [deepmerge_get m r hg2.1, deepmerge_get m' r' hg2'.1]
    have hmk := hm k
    have hrk := hr k
    rcases h1 : mget m k with _ | x <;> rcases h1' : mget m' k with _ | x' <;> simp only [h1, h1', Both] at hmk
    · exact hrk
    · simp only [Both]
      by_cases hx : IsMap x.val
      · have hx' := (sameContent_isMap hmk).1 hx
        rcases h2 : mget r k with _ | o <;> rcases h2' : mget r' k with _ | o' <;> simp only [h2, h2', Both] at hrk
        · rw [deepNode_old none x (.inr (by simp)), deepNode_old none x' (.inr (by simp))]
          exact hmk
        · by_cases ho : IsMap o.val
          · have ho' := (sameContent_isMap hrk).1 ho
            obtain ⟨xm, hxm⟩ := hx
            obtain ⟨xm', hxm'⟩ := hx'
            obtain ⟨om, hom⟩ := ho
            obtain ⟨om', hom'⟩ := ho'
            rw [deepNode_maps o x om xm hom hxm, deepNode_maps o' x' om' xm' hom' hxm']
            refine sameContent_map.2 ?_
            have hx0 := GoMapsM_iff.1 hg2.2 _ (mget_some_mem h1)
            have hx0' := GoMapsM_iff.1 hg2'.2 _ (mget_some_mem h1')
            refine ih _ (mget_some_mem h1) x' om om' xm xm' hxm hxm' hx0 hx0' ?_ ?_
            · cases o; cases o'; simp only [Node.val_mk] at hom hom'; subst hom; subst hom'
              exact sameContent_map.1 hrk
            · cases x; cases x'; simp only [Node.val_mk] at hxm hxm'; subst hxm; subst hxm'
              exact sameContent_map.1 hmk
          · have ho' : ¬ IsMap o'.val := fun h => ho ((sameContent_isMap hrk).2 h)
            rw [deepNode_old _ x (.inr (by intro y hy; cases hy; exact ho)),
              deepNode_old _ x' (.inr (by intro y hy; cases hy; exact ho'))]
            exact hmk
      · have hx' : ¬ IsMap x'.val := fun h => hx ((sameContent_isMap hmk).2 h)
        rw [deepNode_old _ x (.inl hx), deepNode_old _ x' (.inl hx')]
        exact hmk
  case refine_11 =>
    intro v s a ih n' r r' m m' hv hn' hg hg'
    exact ih n' r r' m m' hv hn' hg hg'
  case refine_14 => simp
  case refine_15 =>
    intro e l ih1 ih2 x hx
    rcases List.mem_cons.1 hx with rfl | hx
    · exact ih1
    · exact ih2 x hx
  case refine_16 =>
    intro k n ih
    exact ih
  all_goals intros; first | trivial | contradiction

end Spiff
