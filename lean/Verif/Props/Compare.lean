import Verif.Model.Compare
import Verif.Spec.Compare
import Verif.Props.Equiv
import Verif.Props.Comparison
import Verif.Props.MapFns
import Verif.Lemmas.Index
/-
C17: document comparison.
-/
namespace Spiff
open Spec
variable {E : Type}

theorem findStr_name (n : Node E) (s : String) : findStr false false n ["name"] = some s ↔ Named n s := by
  obtain ⟨v, src, a⟩ := n
  unfold findStr
  rw [findR, nextStep]
  constructor
  · intro h
    cases v with
    | map m =>
      simp only [Node.val_mk, stepMap, isMapResolved] at h
      by_cases hr : mget m "<<" = none ∧ mget m MERGEKEY = none
      · obtain ⟨h1, h2⟩ := hr
        simp only [h1, h2] at h
        rcases hg : mget m "name" with _ | x
        · simp [hg, Look.toOption] at h
        · obtain ⟨xv, xs, xa⟩ := x
          simp only [hg, findR, Look.toOption] at h
          simp at h
          cases xv <;> simp at h
          subst h
          exact ⟨⟨m, _, rfl, hg, rfl⟩, h1, h2⟩
      · exfalso
        have : (mget m "<<").isNone = false ∨ (mget m MERGEKEY).isNone = false := by
          rcases h1 : mget m "<<" with _ | _ <;> rcases h2 : mget m MERGEKEY with _ | _ <;> simp_all
        rcases this with h' | h' <;> simp [h', Look.toOption] at h
    | list l =>
      exfalso
      simp only [Node.val_mk] at h
      by_cases hl : isListResolved l
      · have key : ∀ (l : List (Node E)) k st x, findNamed false false l k st = some x → ∃ m, x.val = .map m := by
          intro l k st x
          induction l with
          | nil => simp [findNamed]
          | cons n r ih =>
            rw [findNamed]
            split
            · next m hm =>
              split
              · split
                · rintro ⟨⟩; exact ⟨m, hm⟩
                · exact ih
              · exact ih
            · exact ih
        have hi : listIndex "name".toList = none := by decide
        have hc : splitColon "name".toList = none := by decide
        simp only [hl, stepList, hi, hc] at h
        generalize hx : findNamed false false l _ "name" = fx at h
        rcases fx with _ | x
        · simp [Look.toOption] at h
        · obtain ⟨m, hm⟩ := key _ _ _ _ hx
          obtain ⟨xv, xs, xa⟩ := x
          simp only [Node.val_mk] at hm
          subst hm
          simp [findR, Look.toOption] at h
      · simp [hl, Look.toOption] at h
    | _ => simp [Look.toOption] at h
  · rintro ⟨⟨m, kn, h1, h2, h3⟩, h4, h5⟩
    simp only [Node.val_mk] at h1
    subst h1
    simp only [field, child, Node.val_mk] at h4 h5
    have h5' : mget m MERGEKEY = none := h5
    obtain ⟨kv, ks, ka⟩ := kn
    simp only [Node.val_mk] at h3
    subst h3
    simp [stepMap, isMapResolved, h4, h5', h2, findR, Look.toOption]

theorem nameOf_iff (n : Node E) (s : String) : nameOf n = some s ↔ Named n s := findStr_name n s

theorem nameOf_none (n : Node E) : nameOf n = none ↔ ∀ s, ¬ Named n s := by
  simp only [← nameOf_iff]
  cases nameOf n <;> simp

theorem named_unique {n : Node E} {s s' : String} (h : Named n s) (h' : Named n s') : s = s' := keyOf_unique h.1 h'.1

theorem named_map {n : Node E} {s : String} (h : Named n s) : IsMap n.val := by
  obtain ⟨⟨m, kn, h1, -⟩, -⟩ := h
  exact ⟨m, h1⟩

theorem cat_nil {α : Type} (x y : Option (List α)) : cat x y = some [] ↔ x = some [] ∧ y = some [] := by
  cases x <;> cases y <;> simp [cat]

theorem extraFields_nil (ks : List String) (m' : List (String × Node E)) (p : List String) :
    extraFields ks m' p = [] ↔ ∀ k ∈ mkeys m', k ∈ ks := by
  simp [extraFields, mkeys]

theorem extraEntries_nil (na : Nat) (l' : List (Node E)) (p : List String) : extraEntries na l' p = [] ↔ l'.length ≤ na := by
  simp only [extraEntries, List.map_eq_nil_iff, List.filter_eq_nil_iff, decide_eq_true_eq]
  constructor
  · intro h
    apply Decidable.byContradiction
    intro hn
    have hl : na < l'.length := by omega
    have := h (l'[na], na) (by rw [List.mem_zipIdx_iff_getElem?]; simp [hl])
    simp at this
  · intro h e he
    obtain ⟨x, i⟩ := e
    rw [List.mem_zipIdx_iff_getElem?] at he
    have : i < l'.length := (List.getElem?_eq_some_iff.1 he).1
    simp only
    omega

variable [DecidableEq E]

theorem cmpFields_nil (m m' : List (String × Node E)) (p : List String) :
    cmpFields m m' p = some [] ↔ ∀ e ∈ m, ∃ y, mget m' e.1 = some y ∧ cmpN e.2 y (p ++ [e.1]) = some [] := by
  induction m with
  | nil => simp [cmpFields]
  | cons e r ih =>
    obtain ⟨k, x⟩ := e
    rw [cmpFields, cat_nil, ih]
    simp only [List.forall_mem_cons]
    refine and_congr_left fun _ => ?_
    rcases hg : mget m' k with _ | y <;> simp

theorem cmpEntries_nil (l l' : List (Node E)) (p : List String) : ∀ i,
    (cmpEntries i l l' p = some [] ↔ ∀ (j : Nat) x, l[j]? = some x → ∃ y, (findByNameOrIndex x l' (i + j)).2 = some y ∧
      cmpN x y (p ++ [(findByNameOrIndex x l' (i + j)).1]) = some []) := by
  induction l with
  | nil => simp [cmpEntries]
  | cons x r ih =>
    intro i
    rw [cmpEntries, cat_nil, ih]
    have h0 : (match findByNameOrIndex x l' i with
        | (key, some y) => cmpN x y (p ++ [key])
        | (key, none) => some [⟨some x, none, p ++ [key]⟩]) = some [] ↔
        ∃ y, (findByNameOrIndex x l' i).2 = some y ∧ cmpN x y (p ++ [(findByNameOrIndex x l' i).1]) = some [] := by
      rcases findByNameOrIndex x l' i with ⟨key, _ | y⟩ <;> simp
    refine (and_congr h0 Iff.rfl).trans ?_
    constructor
    · rintro ⟨h1, h2⟩ j z hz
      cases j with
      | zero =>
        simp only [List.length_cons, Nat.zero_lt_succ, List.getElem?_cons_zero, Option.some.injEq] at hz
        subst hz; exact h1
      | succ j =>
        simp only [List.getElem?_cons_succ] at hz
        have := h2 j z hz
        rwa [show i + 1 + j = i + (j + 1) by omega] at this
    · intro h
      refine ⟨h 0 x rfl, fun j z hz => ?_⟩
      have := h (j + 1) z hz
      rwa [show i + (j + 1) = i + 1 + j by omega] at this

/-- the comparison at `p` is not (yet) a comparison of two job lists -/
def Safe (p : List String) (a b : Node E) : Prop :=
  (p = ["jobs"] → ¬ (IsList a.val ∧ IsList b.val)) ∧
  (p = [] → ∀ x y, field a "jobs" = some x → field b "jobs" = some y → ¬ (IsList x.val ∧ IsList y.val))

omit [DecidableEq E] in
theorem safe_deep {p : List String} (k : String) {a b : Node E} (hp : p ≠ []) : Safe (p ++ [k]) a b := by
  cases p with
  | nil => exact absurd rfl hp
  | cons x r => constructor <;> intro h <;> simp at h

omit [DecidableEq E] in
theorem safe_one (k : String) {a b : Node E} (h : k = "jobs" → ¬ (IsList a.val ∧ IsList b.val)) (p : List String) :
    Safe (p ++ [k]) a b := by
  cases p with
  | nil =>
    constructor
    · intro h'; simp at h'; exact h h'
    · intro h'; simp at h'
  | cons x r => exact safe_deep k (by simp)

omit [DecidableEq E] in
theorem safe_field {p : List String} {k : String} {a b x y : Node E} (h : Safe p a b) (hx : field a k = some x)
    (hy : field b k = some y) : Safe (p ++ [k]) x y := by
  by_cases hp : p = []
  · apply safe_one
    rintro rfl
    exact h.2 hp _ _ hx hy
  · exact safe_deep k hp

omit [DecidableEq E] in
theorem indexKey_not_jobs (i : Nat) : indexKey i ≠ "jobs" := by
  intro h
  have := congrArg String.toList h
  rw [indexKey, idx_toList] at this
  simp at this

omit [DecidableEq E] in
theorem wellNamed_child {a c : Node E} {i : Ix} (h : WellNamed a) (hc : child a.val i = some c) : WellNamed c := by
  intro p n l hn hl
  refine h (i :: p) n l ?_ hl
  rw [locate, hc]
  exact hn

/-- The name map of a list of named entries: the last entry of a name, without its name field. -/
theorem nameMap_spec (l : List (Node E)) (h : ∀ y ∈ l, ∃ s, Named y s) : ∃ m, nameMap [] l = some m ∧ MapOK m ∧
    (∀ k, k ∈ mkeys m ↔ ∃ y ∈ l, Named y k) ∧
    ∀ k n, LastSuch l (fun x => Named x k) n → ∃ v, mget m k = some v ∧ Without "name" n v := by
  have hstep : ∀ acc, nameMap acc l = listToMap "name" acc l := by
    induction l with
    | nil => intro acc; rfl
    | cons n r ih =>
      intro acc
      obtain ⟨s, hs⟩ := h n (by simp)
      obtain ⟨⟨m, kn, h1, h2, h3⟩, -⟩ := id hs
      rw [nameMap, (nameOf_iff n s).2 hs, listToMap]
      simp only [h1, h2, h3]
      exact ih (fun y hy => h y (by simp [hy])) _
  obtain ⟨m, h1, h2, h3, h4⟩ := (list_to_map_spec "name" "" l).2 (fun n hn => by obtain ⟨s, hs⟩ := h n hn; exact ⟨s, hs.1⟩)
  have hm : nameMap [] l = some m := by
    rw [hstep]
    simp only [funcListToMap] at h1
    rcases hx : listToMap "name" [] l with _ | m'
    · simp [hx] at h1
    · simp [hx] at h1; rw [h1]
  have hiff : ∀ n ∈ l, ∀ k, (KeyOf "name" n k ↔ Named n k) := by
    intro n hn k
    refine ⟨fun hk => ?_, fun hk => hk.1⟩
    obtain ⟨s, hs⟩ := h n hn
    have := keyOf_unique hk hs.1
    subst this; exact hs
  refine ⟨m, hm, h2, ?_, ?_⟩
  · intro k
    rw [h3]
    exact exists_congr fun n => and_congr_right fun hn => hiff n hn k
  · intro k n ⟨u, v, e, hp, hr⟩
    refine h4 k n ⟨u, v, e, hp.1, fun y hy hk => hr y hy ((hiff y (by simp [e, hy]) k).1 hk)⟩

omit [DecidableEq E] in
theorem nameMap_none (l : List (Node E)) : ∀ acc, (∃ y ∈ l, ∀ s, ¬ Named y s) → nameMap acc l = none := by
  induction l with
  | nil => rintro acc ⟨y, hy, -⟩; cases hy
  | cons n r ih =>
    rintro acc ⟨y, hy, hn⟩
    rw [nameMap]
    rcases hx : nameOf n with _ | s
    · rfl
    · have hs := (nameOf_iff n s).1 hx
      obtain ⟨m, hm⟩ := named_map hs
      simp only [hm]
      apply ih
      rcases List.mem_cons.1 hy with rfl | hy
      · exact absurd hs (hn s)
      · exact ⟨y, hy, hn⟩

omit [DecidableEq E] in
theorem lastSuch_exists {α : Type} (p : α → Prop) (l : List α) (h : ∃ y ∈ l, p y) : ∃ y, LastSuch l p y := by
  classical
  induction l with
  | nil => obtain ⟨y, hy, -⟩ := h; cases hy
  | cons x r ih =>
    by_cases hr : ∃ y ∈ r, p y
    · obtain ⟨y, u, v, e, h1, h2⟩ := ih hr
      exact ⟨y, x :: u, v, by rw [e]; rfl, h1, h2⟩
    · obtain ⟨y, hy, hp⟩ := h
      rcases List.mem_cons.1 hy with rfl | hy
      · exact ⟨y, [], r, rfl, hp, fun z hz hpz => hr ⟨z, hz, hpz⟩⟩
      · exact absurd ⟨y, hy, hp⟩ hr

omit [DecidableEq E] in
theorem sameDoc_scalar {a b : Node E} (h1 : ¬ IsMap a.val) (h2 : ¬ IsList a.val) : SameDoc a b ↔ SameContent a b := by
  constructor
  · intro h
    cases h with
    | scalar _ _ _ _ h => exact h
    | map _ _ m m' e => exact absurd ⟨m, e⟩ h1
    | ordered _ _ l l' e => exact absurd ⟨l, e⟩ h2
    | named _ _ l l' l'' e => exact absurd ⟨l, e⟩ h2
    | byName _ _ m l' v e => exact absurd ⟨m, e⟩ h1
  · exact .scalar a b h1 h2

omit [DecidableEq E] in
theorem sameDoc_map {a b : Node E} {m : List (String × Node E)} (h : a.val = .map m) : SameDoc a b ↔
    (∃ m', b.val = .map m' ∧ (∀ k, k ∈ mkeys m ↔ k ∈ mkeys m') ∧ ∀ k x y, mget m k = some x → mget m' k = some y → SameDoc x y) ∨
    ∃ (l' : List (Node E)) (v : String → Node E), b.val = .list l' ∧ (∀ y ∈ l', ∃ s, Named y s) ∧ (∀ k, k ∈ mkeys m ↔ ∃ y ∈ l', Named y k) ∧
      (∀ k, k ∈ mkeys m → ∃ y, LastSuch l' (fun e => Named e k) y ∧ Without "name" y (v k)) ∧
      ∀ k x, mget m k = some x → SameDoc x (v k) := by
  constructor
  · intro hs
    cases hs with
    | scalar _ _ h1 h2 _ => exact absurd ⟨m, h⟩ h1
    | map _ _ m1 m' e e' h1 h2 => rw [h] at e; cases e; exact .inl ⟨m', e', h1, h2⟩
    | ordered _ _ l l' e => rw [h] at e; cases e
    | named _ _ l l' l'' e => rw [h] at e; cases e
    | byName _ _ m1 l' v e e' h1 h2 h3 h4 => rw [h] at e; cases e; exact .inr ⟨l', v, e', h1, h2, h3, h4⟩
  · rintro (⟨m', e', h1, h2⟩ | ⟨l', v, e', h1, h2, h3, h4⟩)
    · exact .map a b m m' h e' h1 h2
    · exact .byName a b m l' v h e' h1 h2 h3 h4

omit [DecidableEq E] in
theorem sameDoc_list {a b : Node E} {l : List (Node E)} (h : a.val = .list l) : SameDoc a b ↔
    ∃ l', b.val = .list l' ∧ ((l.length = l'.length ∧ ∀ (i : Nat) x y, l[i]? = some x → l'[i]? = some y → SameDoc x y) ∨
     ∃ l'' : List (Node E), (∀ x ∈ l, ∃ s, Named x s) ∧ l''.Perm l' ∧ l.length = l''.length ∧
      ∀ (i : Nat) x y, l[i]? = some x → l''[i]? = some y → SameDoc x y) := by
  constructor
  · intro hs
    cases hs with
    | scalar _ _ h1 h2 _ => exact absurd ⟨l, h⟩ h2
    | map _ _ m1 m' e e' h1 h2 => rw [h] at e; cases e
    | ordered _ _ l1 l' e e' h1 h2 => rw [h] at e; cases e; exact ⟨l', e', .inl ⟨h1, h2⟩⟩
    | named _ _ l1 l' l'' e e' h1 h2 h3 h4 => rw [h] at e; cases e; exact ⟨l', e', .inr ⟨l'', h1, h2, h3, h4⟩⟩
    | byName _ _ m1 l' v e e' h1 h2 h3 h4 => rw [h] at e; cases e
  · rintro ⟨l', e', ⟨h1, h2⟩ | ⟨l'', h1, h2, h3, h4⟩⟩
    · exact .ordered a b l l' h e' h1 h2
    · exact .named a b l l' l'' h e' h1 h2 h3 h4

omit [DecidableEq E] in
/-- the same documents have the same name -/
theorem sameDoc_named {x y : Node E} {s : String} (h : SameDoc x y) (hx : Named x s) : Named y s := by
  obtain ⟨⟨m, kn, h1, h2, h3⟩, h4, h5⟩ := hx
  have hkn : ∀ {z}, SameDoc kn z → SameContent kn z := (sameDoc_scalar (by rw [h3]; rintro ⟨_, ⟨⟩⟩) (by rw [h3]; rintro ⟨_, ⟨⟩⟩)).1
  rcases (sameDoc_map h1).1 h with ⟨m2, e2, hk, hs⟩ | ⟨l', v, e', hn, hk, hw, hs⟩
  · simp only [field, child, h1] at h4 h5
    have : ∃ yn, mget m2 "name" = some yn := (mem_mkeys_iff _ _).1 ((hk "name").1 ((mem_mkeys_iff _ _).2 ⟨kn, h2⟩))
    obtain ⟨yn, hyn⟩ := this
    have hsd := agree_refl_kind (hkn (hs "name" kn yn h2 hyn))
    refine ⟨⟨m2, yn, e2, hyn, ?_⟩, ?_, ?_⟩
    · rw [h3] at hsd
      generalize yn.val = w at hsd
      cases w <;> simp [SameKind] at hsd
      rw [hsd]
    · simp only [field, child, e2]
      rw [mget_none_iff, ← hk, ← mget_none_iff]; exact h4
    · simp only [field, child, e2]
      rw [mget_none_iff, ← hk, ← mget_none_iff]; exact h5
  · exfalso
    have hsd := agree_refl_kind (hkn (hs "name" kn h2))
    obtain ⟨z, hz, hzw⟩ := hw "name" ((mem_mkeys_iff _ _).2 ⟨kn, h2⟩)
    obtain ⟨⟨mz, hmz⟩, -⟩ := hzw
    rw [h3, hmz] at hsd
    simp [SameKind] at hsd

theorem cmpV_map_nil {m m' : List (String × Node E)} (hm : MapOK m) (p : List String) :
    cat (cmpFields m m' p) (some (extraFields (mkeys m) m' p)) = some [] ↔
    (∀ k, k ∈ mkeys m ↔ k ∈ mkeys m') ∧ ∀ k x y, mget m k = some x → mget m' k = some y → cmpN x y (p ++ [k]) = some [] := by
  rw [cat_nil, cmpFields_nil]
  simp only [Option.some.injEq, extraFields_nil]
  constructor
  · rintro ⟨h1, h2⟩
    refine ⟨fun k => ⟨fun hk => ?_, h2 k⟩, ?_⟩
    · obtain ⟨x, hx⟩ := (mem_mkeys_iff _ _).1 hk
      obtain ⟨y, hy, -⟩ := h1 _ (mget_some_mem hx)
      exact (mem_mkeys_iff _ _).2 ⟨y, hy⟩
    · intro k x y hx hy
      obtain ⟨y', hy', h⟩ := h1 _ (mget_some_mem hx)
      simp only at hy' h
      rw [hy] at hy'; cases hy'
      exact h
  · rintro ⟨h1, h2⟩
    refine ⟨fun e he => ?_, fun k hk => (h1 k).2 hk⟩
    have hx := mget_of_mem hm he
    obtain ⟨y, hy⟩ := (mem_mkeys_iff _ _).1 ((h1 e.1).1 ((mem_mkeys_iff _ _).2 ⟨_, hx⟩))
    exact ⟨y, hy, h2 _ _ _ hx hy⟩

omit [DecidableEq E] in
theorem findByName_some {s : String} {l' : List (Node E)} {y : Node E} (h : findByName s l' = some y) : y ∈ l' ∧ Named y s := by
  refine ⟨List.mem_of_find?_eq_some h, ?_⟩
  have := List.find?_some h
  rw [← nameOf_iff]
  simpa using this

omit [DecidableEq E] in
theorem findByName_none {s : String} {l' : List (Node E)} (h : findByName s l' = none) : ∀ y ∈ l', ¬ Named y s := by
  intro y hy hn
  have := List.find?_eq_none.1 h y hy
  rw [(nameOf_iff _ _).2 hn] at this
  simp at this

/-- Injectively matched lists of the same length are permutations of each other. -/
theorem perm_of_matched {α : Type} (R : α → α → Prop) (l l' : List α) (hlen : l'.length ≤ l.length)
    (h : ∀ (i : Nat) x, l[i]? = some x → ∃ (j : Nat) (y : α), l'[j]? = some y ∧ R x y)
    (hinj : ∀ (i i' : Nat) x x' y, l[i]? = some x → l[i']? = some x' → R x y → R x' y → i = i') :
    ∃ l'' : List α, l''.Perm l' ∧ l.length = l''.length ∧ ∀ (i : Nat) x y, l[i]? = some x → l''[i]? = some y → R x y := by
  classical
  induction l generalizing l' with
  | nil =>
    have : l' = [] := by simpa using hlen
    subst this
    exact ⟨[], by simp⟩
  | cons x r ih =>
    obtain ⟨j, y, hy, hR⟩ := h 0 x rfl
    have hj : j < l'.length := (List.getElem?_eq_some_iff.1 hy).1
    have hp : (y :: l'.eraseIdx j).Perm l' := by
      have hyj : l'[j] = y := by rw [List.getElem?_eq_getElem hj] at hy; exact Option.some.inj hy
      rw [← hyj]
      exact List.getElem_cons_eraseIdx_perm hj
    obtain ⟨l'', h1, h2, h3⟩ := ih (l'.eraseIdx j) (by rw [List.length_eraseIdx_of_lt hj]; simp at hlen; omega)
      (by
        intro i z hz
        obtain ⟨j', w, hw, hRw⟩ := h (i + 1) z hz
        have hwm : w ∈ y :: l'.eraseIdx j := hp.symm.mem_iff.1 (List.mem_of_getElem? hw)
        rcases List.mem_cons.1 hwm with e | hm
        · subst e
          have := hinj 0 (i + 1) x z w rfl hz hR hRw
          omega
        · obtain ⟨n, hn⟩ := List.mem_iff_getElem?.1 hm
          exact ⟨n, w, hn, hRw⟩)
      (by
        intro i i' z z' w h1 h2 h3 h4
        have := hinj (i + 1) (i' + 1) z z' w h1 h2 h3 h4
        omega)
    refine ⟨y :: l'', (List.Perm.cons y h1).trans hp, by simp [h2], ?_⟩
    intro i z w hz hw
    cases i with
    | zero => simp at hz hw; subst hz; subst hw; exact hR
    | succ i => simp at hz hw; exact h3 i z w hz hw


omit [DecidableEq E] in
theorem nameMap_go (l : List (Node E)) (h : ∀ y ∈ l, GoMaps y) : ∀ acc, (∀ e ∈ acc, GoMaps e.2) → ∀ m, nameMap acc l = some m →
    ∀ e ∈ m, GoMaps e.2 := by
  induction l with
  | nil => intro acc ha m e; simp only [nameMap, Option.some.injEq] at e; subst e; exact ha
  | cons n r ih =>
    intro acc ha m
    rw [nameMap]
    rcases nameOf n with _ | s
    · simp
    · simp only
      split
      · next m0 hm0 =>
        refine ih (fun y hy => h y (by simp [hy])) _ ?_ m
        have hn := h n (by simp)
        obtain ⟨v, ns, na⟩ := n
        simp only [Node.val_mk] at hm0
        subst hm0
        simp only [GoMaps, GoMapsV, GoMapsM_iff] at hn
        have key : GoMaps ((Node.mk (.map m0) ns na).withVal (.map (mdel m0 "name"))) := by
          simp only [Node.withVal, GoMaps, GoMapsV, GoMapsM_iff]
          refine ⟨?_, fun e he => hn.2 e (List.mem_filter.1 he).1⟩
          exact hn.1.sublist (List.Sublist.map _ (List.filter_sublist))
        intro e he
        have : ∀ (acc : List (String × Node E)) k v, (k, v) ∈ mset acc s ((Node.mk (.map m0) ns na).withVal (.map (mdel m0 "name"))) →
            (k, v) ∈ acc ∨ v = (Node.mk (.map m0) ns na).withVal (.map (mdel m0 "name")) := by
          intro acc
          induction acc with
          | nil => intro k v; simp [mset]
          | cons x acc ih2 =>
            obtain ⟨kx, vx⟩ := x
            intro k v
            simp only [mset]
            split
            · intro hx
              rcases List.mem_cons.1 hx with hx | hx
              · cases hx; exact .inr rfl
              · exact .inl (by simp [hx])
            · intro hx
              rcases List.mem_cons.1 hx with hx | hx
              · exact .inl (by simp [hx])
              · rcases ih2 k v hx with h | h
                · exact .inl (by simp [h])
                · exact .inr h
        rcases this acc e.1 e.2 he with h | h
        · exact ha e h
        · rw [h]; exact key
      · simp

omit [DecidableEq E] in
theorem sameDoc_without {x y w w' : Node E} (hw : Without "name" y w) (hw' : Without "name" y w') (h : SameDoc x w) : SameDoc x w' := by
  obtain ⟨⟨m, hm⟩, -, -, h1, h2⟩ := hw
  obtain ⟨⟨m', hm'⟩, -, -, h1', h2'⟩ := hw'
  have hg : ∀ k, mget m k = mget m' k := by
    intro k
    have : field w k = field w' k := by
      by_cases hk : k = "name"
      · rw [hk, h1, h1']
      · rw [h2 k hk, h2' k hk]
    simpa [field, child, hm, hm'] using this
  by_cases hxm : IsMap x.val
  · obtain ⟨mx, hxm⟩ := hxm
    rw [sameDoc_map hxm] at h ⊢
    rcases h with ⟨m1, e, h3, h4⟩ | ⟨l1, v, e, -⟩
    · rw [hm] at e; cases e
      refine .inl ⟨m', hm', fun k => ?_, fun k a b ha hb => h4 k a b ha (by rw [hg]; exact hb)⟩
      rw [h3, mem_mkeys_iff, mem_mkeys_iff, hg]
    · rw [hm] at e; cases e
  · by_cases hxl : IsList x.val
    · obtain ⟨lx, hxl⟩ := hxl
      rw [sameDoc_list hxl] at h
      obtain ⟨l1, e, -⟩ := h
      rw [hm] at e; cases e
    · rw [sameDoc_scalar hxm hxl] at h
      have := agree_refl_kind h
      rw [hm] at this
      exfalso
      apply hxm
      generalize x.val = xv at this
      cases xv <;> simp_all [SameKind, IsMap]

theorem scalarSame_equiv (v : Val E) (s : String) (an : Ann) (b : Node E) (h1 : ¬ IsMap v) (h2 : ¬ IsList v) :
    scalarSame v b.val = true ↔ equivN (.mk v s an) b = true := by
  obtain ⟨w, bs, ba⟩ := b
  rw [equivN]
  cases v <;> cases w <;> simp [scalarSame, equivV]
  · exact absurd ⟨_, rfl⟩ h2
  exact absurd ⟨_, rfl⟩ h1

/-- The main induction: comparison outside of job lists. -/
theorem cmp_same (a : Node E) : ∀ b p, GoMaps a → GoMaps b → WellNamed a → Safe p a b → (cmpN a b p = some [] ↔ SameDoc a b) := by
  refine Node.rec
    (motive_1 := fun v => ∀ s an b p, GoMapsV v → GoMaps b → WellNamed (.mk v s an) → Safe p (.mk v s an) b →
      (cmpV v s an b p = some [] ↔ SameDoc (.mk v s an) b))
    (motive_2 := fun a => ∀ b p, GoMaps a → GoMaps b → WellNamed a → Safe p a b → (cmpN a b p = some [] ↔ SameDoc a b))
    (motive_3 := fun l => ∀ a ∈ l, ∀ b p, GoMaps a → GoMaps b → WellNamed a → Safe p a b → (cmpN a b p = some [] ↔ SameDoc a b))
    (motive_4 := fun m => ∀ e ∈ m, ∀ b p, GoMaps e.2 → GoMaps b → WellNamed e.2 → Safe p e.2 b → (cmpN e.2 b p = some [] ↔ SameDoc e.2 b))
    (motive_5 := fun e => ∀ b p, GoMaps e.2 → GoMaps b → WellNamed e.2 → Safe p e.2 b → (cmpN e.2 b p = some [] ↔ SameDoc e.2 b))
    ?_ ?_ ?_ ?_ ?_ ?_ ?_ ?_ ?_ ?_ ?_ ?_ ?_ ?_ ?_ ?_ a
  case refine_6 => -- list
    intro l ih s an b p ha hb hw hsafe
    rw [cmpV, sameDoc_list rfl]
    rcases hbv : b.val with _ | x | x | x | x | l' | m' | x | x | x
    case list =>
      have hp : p ≠ ["jobs"] := fun h => hsafe.1 h ⟨⟨l, rfl⟩, ⟨l', hbv⟩⟩
      simp only [hp, if_false]
      rw [cat_nil, cmpEntries_nil]
      simp only [Option.some.injEq, extraEntries_nil, Nat.zero_add]
      simp only [GoMapsV] at ha
      rw [GoMapsL_iff] at ha
      have hb' : ∀ y ∈ l', GoMaps y := by
        obtain ⟨bv, bs, ba⟩ := b
        simp only [Node.val_mk] at hbv
        subst hbv
        simp only [GoMaps, GoMapsV] at hb
        exact GoMapsL_iff.1 hb
      have hstep : ∀ x ∈ l, ∀ y ∈ l', ∀ k, k ≠ "jobs" ∨ IsMap x.val → (cmpN x y (p ++ [k]) = some [] ↔ SameDoc x y) := by
        intro x hx y hy k hk
        refine ih x hx y _ (ha x hx) (hb' y hy) ?_ ?_
        · obtain ⟨i, hi⟩ := List.mem_iff_getElem?.1 hx
          exact wellNamed_child hw (i := .idx i) hi
        · refine safe_one k ?_ p
          rintro rfl
          rcases hk with h | ⟨m, h⟩
          · exact absurd rfl h
          · rintro ⟨⟨_, h'⟩, -⟩; rw [h] at h'; cases h'
      have hidx : ∀ (i : Nat) x, l[i]? = some x → (∀ s, ¬ Named x s) → findByNameOrIndex x l' i = (indexKey i, l'[i]?) := by
        intro i x hx hn
        rw [findByNameOrIndex, (nameOf_none x).2 hn]
        rfl
      rcases hw [] _ l rfl rfl with ⟨hn, hu⟩ | hn
      · -- all entries named
        have hmatch : ∀ (i : Nat) x, l[i]? = some x → ((∃ y, (findByNameOrIndex x l' i).2 = some y ∧
            cmpN x y (p ++ [(findByNameOrIndex x l' i).1]) = some []) → ∃ s y, Named x s ∧ findByName s l' = some y ∧ SameDoc x y) := by
          intro i x hx
          have hxm := List.mem_of_getElem? hx
          obtain ⟨s, hs⟩ := hn x hxm
          rw [findByNameOrIndex, (nameOf_iff x s).2 hs]
          simp only
          rcases hf : findByName s l' with _ | z
          · simp only [findByIndex]
            rintro ⟨y, hy, hc⟩
            have hym := List.mem_of_getElem? hy
            have hsd := (hstep x hxm y hym _ (.inr (named_map hs))).1 hc
            exact absurd (sameDoc_named hsd hs) (findByName_none hf y hym)
          · simp only [Option.some.injEq]
            rintro ⟨y, rfl, hc⟩
            exact ⟨s, z, hs, hf, (hstep x hxm z (findByName_some hf).1 _ (.inr (named_map hs))).1 hc⟩
        constructor
        · rintro ⟨h1, h2⟩
          refine ⟨l', rfl, .inr ?_⟩
          suffices hq : (∀ (i : Nat) x, l[i]? = some x → ∃ (j : Nat) (y : Node E), l'[j]? = some y ∧ SameDoc x y ∧ ∃ s, Named x s) ∧
              (∀ (i i' : Nat) x x' y, l[i]? = some x → l[i']? = some x' → (SameDoc x y ∧ ∃ s, Named x s) → (SameDoc x' y ∧ ∃ s, Named x' s) → i = i') from by
            obtain ⟨l'', q1, q2, q3⟩ := perm_of_matched (fun x y => SameDoc x y ∧ ∃ s, Named x s) l l' h2 hq.1 hq.2
            exact ⟨l'', hn, q1, q2, fun i x y hx hy => (q3 i x y hx hy).1⟩
          refine ⟨?_, ?_⟩
          · intro i x hx
            obtain ⟨s, y, hs, hf, hd⟩ := hmatch i x hx (h1 i x hx)
            obtain ⟨j, hj⟩ := List.mem_iff_getElem?.1 (findByName_some hf).1
            exact ⟨j, y, hj, hd, s, hs⟩
          · rintro i i' x x' y hx hx' ⟨hd, s, hs⟩ ⟨hd', s', hs'⟩
            have := named_unique (sameDoc_named hd hs) (sameDoc_named hd' hs')
            subst this
            exact hu i i' x x' s hx hx' hs hs'
        · rintro ⟨l1, e, h⟩
          cases e
          obtain ⟨l'', -, q1, q2, q3⟩ : ∃ l'' : List (Node E), (∀ x ∈ l, ∃ s, Named x s) ∧ l''.Perm l' ∧ l.length = l''.length ∧
              ∀ (i : Nat) x y, l[i]? = some x → l''[i]? = some y → SameDoc x y := by
            rcases h with ⟨h1, h2⟩ | h
            · exact ⟨l', hn, List.Perm.refl _, h1, h2⟩
            · exact h
          refine ⟨?_, by rw [q2, q1.length_eq]; exact Nat.le_refl _⟩
          intro i x hx
          have hxm := List.mem_of_getElem? hx
          obtain ⟨s, hs⟩ := hn x hxm
          have hil : i < l''.length := by rw [← q2]; exact (List.getElem?_eq_some_iff.1 hx).1
          have hyi : l''[i]? = some l''[i] := List.getElem?_eq_getElem hil
          have hd := q3 i x _ hx hyi
          have hys := sameDoc_named hd hs
          have hym : l''[i] ∈ l' := q1.mem_iff.1 (List.getElem_mem hil)
          rcases hf : findByName s l' with _ | z
          · exact absurd hys (findByName_none hf _ hym)
          · obtain ⟨hzm, hzs⟩ := findByName_some hf
            obtain ⟨j, hj⟩ := List.mem_iff_getElem?.1 (q1.mem_iff.2 hzm)
            have hjl : j < l.length := by rw [q2]; exact (List.getElem?_eq_some_iff.1 hj).1
            have hxj : l[j]? = some l[j] := List.getElem?_eq_getElem hjl
            obtain ⟨s', hs'⟩ := hn _ (List.getElem_mem hjl)
            have hdj := q3 j _ z hxj hj
            have := named_unique (sameDoc_named hdj hs') hzs
            subst this
            have hij := hu i j _ _ s' hx hxj hs hs'
            subst hij
            rw [hj] at hyi
            have hzi := Option.some.inj hyi
            rw [findByNameOrIndex, (nameOf_iff x s').2 hs]
            simp only [hf]
            refine ⟨z, rfl, (hstep x hxm z hzm _ (.inr (named_map hs))).2 ?_⟩
            rw [hzi]; exact hd
      · -- no entry named
        constructor
        · rintro ⟨h1, h2⟩
          have h3 : ∀ (i : Nat) x, l[i]? = some x → ∃ y, l'[i]? = some y ∧ SameDoc x y := by
            intro i x hx
            have hxm := List.mem_of_getElem? hx
            obtain ⟨y, hy, hc⟩ := h1 i x hx
            rw [hidx i x hx (hn x hxm)] at hy hc
            exact ⟨y, hy, (hstep x hxm y (List.mem_of_getElem? hy) _ (.inl (indexKey_not_jobs i))).1 hc⟩
          refine ⟨l', rfl, .inl ⟨?_, ?_⟩⟩
          · refine Nat.le_antisymm ?_ h2
            apply Decidable.byContradiction
            intro hlt
            have hlt' : l'.length < l.length := by omega
            obtain ⟨y, hy, -⟩ := h3 l'.length _ (List.getElem?_eq_getElem hlt')
            have := (List.getElem?_eq_some_iff.1 hy).1
            omega
          · intro i x y hx hy
            obtain ⟨y', hy', h⟩ := h3 i x hx
            rw [hy] at hy'; cases hy'
            exact h
        · rintro ⟨l1, e, h⟩
          cases e
          have h' : l.length = l'.length ∧ ∀ (i : Nat) x y, l[i]? = some x → l'[i]? = some y → SameDoc x y := by
            rcases h with h | ⟨l'', h1, h2, h3, -⟩
            · exact h
            · have : l = [] := by
                cases l with
                | nil => rfl
                | cons x r =>
                  obtain ⟨s, hs⟩ := h1 x (by simp)
                  exact absurd hs (hn x (by simp) s)
              subst this
              simp only [List.length_nil] at h3
              have h4 := h2.length_eq
              rw [← h3] at h4
              exact ⟨h4, by simp⟩
          refine ⟨?_, by rw [h'.1]; exact Nat.le_refl _⟩
          intro i x hx
          have hxm := List.mem_of_getElem? hx
          have hil : i < l'.length := by rw [← h'.1]; exact (List.getElem?_eq_some_iff.1 hx).1
          rw [hidx i x hx (hn x hxm)]
          exact ⟨l'[i], List.getElem?_eq_getElem hil,
            (hstep x hxm _ (List.getElem_mem hil) _ (.inl (indexKey_not_jobs i))).2 (h'.2 i x _ hx (List.getElem?_eq_getElem hil))⟩
    all_goals
      simp
  case refine_7 => -- map
    intro m ih s an b p ha hb hw hsafe
    simp only [GoMapsV] at ha
    obtain ⟨hm, ha⟩ := ha
    rw [GoMapsM_iff] at ha
    rw [cmpV, sameDoc_map rfl]
    rcases hbv : b.val with _ | x | x | x | x | l' | m' | x | x | x
    case map =>
      have hb' : ∀ e ∈ m', GoMaps e.2 := by
        obtain ⟨bv, bs, ba⟩ := b
        simp only [Node.val_mk] at hbv
        subst hbv
        simp only [GoMaps, GoMapsV] at hb
        exact GoMapsM_iff.1 hb.2
      have hstep : ∀ k x y, mget m k = some x → mget m' k = some y → (cmpN x y (p ++ [k]) = some [] ↔ SameDoc x y) := by
        intro k x y hx hy
        refine ih (k, x) (mget_some_mem hx) y _ (ha _ (mget_some_mem hx)) (hb' _ (mget_some_mem hy)) ?_ ?_
        · exact wellNamed_child hw (i := .key k) hx
        · refine safe_field hsafe hx ?_
          simp only [field, child, hbv]; exact hy
      simp only
      rw [cmpV_map_nil hm]
      constructor
      · rintro ⟨h1, h2⟩
        exact .inl ⟨m', rfl, h1, fun k x y hx hy => (hstep k x y hx hy).1 (h2 k x y hx hy)⟩
      · rintro (⟨m1, e, h1, h2⟩ | ⟨l', v, e, -⟩)
        · cases e
          exact ⟨h1, fun k x y hx hy => (hstep k x y hx hy).2 (h2 k x y hx hy)⟩
        · cases e
    case list =>
      by_cases hn : ∀ y ∈ l', ∃ s, Named y s
      · obtain ⟨m', e1, e2, e3, e4⟩ := nameMap_spec l' hn
        have hb' : ∀ y ∈ l', GoMaps y := by
          obtain ⟨bv, bs, ba⟩ := b
          simp only [Node.val_mk] at hbv
          subst hbv
          simp only [GoMaps, GoMapsV] at hb
          exact GoMapsL_iff.1 hb
        have hval : ∀ k w, mget m' k = some w → ∃ y, LastSuch l' (fun e => Named e k) y ∧ Without "name" y w := by
          intro k w hw
          obtain ⟨y, hy⟩ := lastSuch_exists (fun e => Named e k) l' ((e3 k).1 ((mem_mkeys_iff _ _).2 ⟨w, hw⟩))
          obtain ⟨v, hv, hv'⟩ := e4 k y hy
          rw [hw] at hv; cases hv
          exact ⟨y, hy, hv'⟩
        have hgo : ∀ k w, mget m' k = some w → GoMaps w := fun k w hw => nameMap_go l' hb' [] (by simp) m' e1 (k, w) (mget_some_mem hw)
        have hmp : ∀ k w, mget m' k = some w → IsMap w.val := by
          intro k w hw
          obtain ⟨y, -, hy, -⟩ := hval k w hw
          exact hy
        have hstep : ∀ k x y, mget m k = some x → mget m' k = some y → (cmpN x y (p ++ [k]) = some [] ↔ SameDoc x y) := by
          intro k x y hx hy
          refine ih (k, x) (mget_some_mem hx) y _ (ha _ (mget_some_mem hx)) (hgo k y hy) ?_ ?_
          · exact wellNamed_child hw (i := .key k) hx
          · refine safe_one k ?_ p
            rintro - ⟨-, ⟨l0, h0⟩⟩
            obtain ⟨m0, h1⟩ := hmp k y hy
            rw [h0] at h1; cases h1
        simp only [e1]
        rw [cmpV_map_nil hm]
        constructor
        · rintro ⟨h1, h2⟩
          have hsel : ∀ k ∈ mkeys m, ∃ w, mget m' k = some w := fun k hk => (mem_mkeys_iff _ _).1 ((h1 k).1 hk)
          refine .inr ⟨l', fun k => (mget m' k).getD b, rfl, hn, ?_, ?_, ?_⟩
          · intro k; rw [h1, e3]
          · intro k hk
            obtain ⟨w, hw⟩ := hsel k hk
            simp only [hw, Option.getD_some]; exact hval k w hw
          · intro k x hx
            obtain ⟨w, hw⟩ := hsel k ((mem_mkeys_iff _ _).2 ⟨x, hx⟩)
            simp only [hw, Option.getD_some]; exact (hstep k x w hx hw).1 (h2 k x w hx hw)
        · rintro (⟨m1, e, -⟩ | ⟨l1, v, e, -, h2, h3, h4⟩)
          · cases e
          · cases e
            refine ⟨fun k => by rw [h2, e3], fun k x w hx hw => (hstep k x w hx hw).2 ?_⟩
            obtain ⟨y, hy, hyw⟩ := h3 k ((mem_mkeys_iff _ _).2 ⟨x, hx⟩)
            obtain ⟨w', hw', hww⟩ := e4 k y hy
            rw [hw] at hw'; cases hw'
            exact sameDoc_without hyw hww (h4 k x hx)
      · have hn' : ∃ y ∈ l', ∀ s, ¬ Named y s := by
          simpa using hn
        simp only [nameMap_none l' [] hn', Option.some.injEq, List.cons_ne_self, false_iff]
        rintro (⟨m1, e, -⟩ | ⟨l1, v, e, h, -⟩)
        · cases e
        · cases e; exact hn h
    all_goals
      simp
  case refine_11 =>
    intro v s an ih b p ha hb hw hsafe
    rw [cmpN]
    exact ih s an b p (by simpa [GoMaps] using ha) hb hw hsafe
  case refine_12 => intro a h; cases h
  case refine_13 =>
    intro x r h1 h2 a h
    rcases List.mem_cons.1 h with rfl | h
    · exact h1
    · exact h2 a h
  case refine_14 => intro a h; cases h
  case refine_15 =>
    intro x r h1 h2 a h
    rcases List.mem_cons.1 h with rfl | h
    · exact h1
    · exact h2 a h
  case refine_16 => intro k n ih; exact ih
  all_goals
    intros
    rename_i hg hb hw hsafe
    rw [cmpV, sameDoc_scalar (by rintro ⟨_, ⟨⟩⟩) (by rintro ⟨_, ⟨⟩⟩), ← equiv_iff_same_content _ _ (by simpa [GoMaps] using hg) hb,
      ← scalarSame_equiv _ _ _ _ (by rintro ⟨_, ⟨⟩⟩) (by rintro ⟨_, ⟨⟩⟩)]
    split <;> simp_all

/-- C17: comparing two documents yields no difference exactly if they are the same. The names within a list of the first
document must be different (or missing for all entries), and not both documents may have a list `jobs` at the top. -/
theorem compare_empty_iff (a b : Node E) (ha : GoMaps a) (hb : GoMaps b) (hw : WellNamed a)
    (hj : ∀ x y, field a "jobs" = some x → field b "jobs" = some y → ¬ (IsList x.val ∧ IsList y.val)) :
    compareDocs a b = some [] ↔ SameDoc a b :=
  cmp_same a b [] ha hb hw ⟨fun h => (by cases h), fun _ => hj⟩


/-! jobs -/

omit [DecidableEq E] in
theorem jobName_iff (n : Node E) (m : List (String × Node E)) (hm : n.val = .map m) (s : String) :
    nameOf (n.withVal (.map (mset m "index" (Node.new (.int 0) "")))) = some s ↔ nameOf n = some s := by
  rw [nameOf_iff, nameOf_iff]
  have hf : ∀ k, k ≠ "index" → field (n.withVal (.map (mset m "index" (Node.new (.int 0) "")))) k = field n k := by
    intro k hk
    simp only [field, child, Node.val_withVal, hm]
    exact mget_mset_ne m _ hk
  have h1 := hf "name" (by decide)
  have h2 := hf "<<" (by decide)
  have h3 := hf "<<<" (by decide)
  simp only [field, child, Node.val_withVal, hm] at h1
  unfold Named
  rw [h2, h3]
  refine and_congr_left fun _ => ?_
  constructor
  · rintro ⟨m', kn, e, e2, e3⟩
    simp only [Node.val_withVal, Val.map.injEq] at e
    subst e
    exact ⟨m, kn, hm, by rw [← h1]; exact e2, e3⟩
  · rintro ⟨m', kn, e, e2, e3⟩
    rw [hm] at e; cases e
    exact ⟨_, kn, rfl, by rw [h1]; exact e2, e3⟩

omit [DecidableEq E] in
theorem jobsOK_iff (l : List (Node E)) : jobsOK l = true ↔ ∀ x ∈ l, ∃ s, Named x s := by
  simp only [jobsOK, List.all_eq_true]
  refine forall_congr' fun x => forall_congr' fun _ => ?_
  rcases hv : x.val with _ | _ | _ | _ | _ | _ | m | _ | _ | _
  case map =>
    simp only [Bool.true_and, Option.isSome_iff_exists, jobName_iff x m hv, nameOf_iff]
  all_goals
    simp only [Bool.false_and, Bool.false_eq_true, false_iff]
    rintro ⟨s, hs⟩
    obtain ⟨m, hm⟩ := named_map hs
    rw [hv] at hm; cases hm

theorem cmpAttrs_nil (m m' : List (String × Node E)) (p : List String) :
    cmpAttrs m m' p = some [] ↔ ∀ e ∈ m, e.1 ≠ "index" → ∃ y, mget m' e.1 = some y ∧ cmpN e.2 y (p ++ [e.1]) = some [] := by
  induction m with
  | nil => simp [cmpAttrs]
  | cons e r ih =>
    obtain ⟨k, x⟩ := e
    rw [cmpAttrs, cat_nil, ih]
    simp only [List.forall_mem_cons]
    refine and_congr_left fun _ => ?_
    by_cases hk : k = "index"
    · simp [hk]
    · rcases hg : mget m' k with _ | y <;> simp [hk]

omit [DecidableEq E] in
theorem findJob_some {s : String} {l' : List (Node E)} {m : List (String × Node E)} {j : Nat} (h : findJob s l' = some (m, j)) :
    ∃ y, l'[j]? = some y ∧ Named y s ∧ y.val = .map m := by
  unfold findJob at h
  split at h
  · next n i hf =>
    split at h
    · next m' hm =>
      cases h
      have h1 := List.mem_of_find?_eq_some hf
      rw [List.mem_reverse, List.mem_zipIdx_iff_getElem?] at h1
      have h2 := List.find?_some hf
      exact ⟨n, h1, by rw [← nameOf_iff]; simpa using h2, hm⟩
    · cases h
  · cases h

omit [DecidableEq E] in
theorem findJob_none {s : String} {l' : List (Node E)} (h : findJob s l' = none) : ∀ y ∈ l', ¬ Named y s := by
  intro y hy hn
  unfold findJob at h
  split at h
  · next n i hf =>
    split at h
    · cases h
    · next hm =>
      have h2 := List.find?_some hf
      obtain ⟨m, hm'⟩ := named_map ((nameOf_iff n s).1 (by simpa using h2))
      exact hm m hm'
  · next hf =>
    obtain ⟨i, hi⟩ := List.mem_iff_getElem?.1 hy
    have := List.find?_eq_none.1 hf (y, i) (by rw [List.mem_reverse, List.mem_zipIdx_iff_getElem?]; exact hi)
    rw [(nameOf_iff _ _).2 hn] at this
    simp at this

theorem cmpJobs_nil (l' : List (Node E)) (p : List String) (l : List (Node E)) : ∀ i, (∀ x ∈ l, ∃ s, Named x s) → UniqueNames l →
    (cmpJobs i l l' p = some [] ↔ ∀ (j : Nat) x s, l[j]? = some x → Named x s →
      ∃ m' j', findJob s l' = some (m', j') ∧ cmpJob x (i + j) m' j' (p ++ [s]) = some []) := by
  induction l with
  | nil => intro i _ _; simp [cmpJobs]
  | cons x r ih =>
    intro i hn hu
    obtain ⟨s, hs⟩ := hn x (by simp)
    have hx := (nameOf_iff x s).2 hs
    have hu' : UniqueNames r := by
      intro a b y z t h1 h2 h3 h4
      have := hu (a + 1) (b + 1) y z t h1 h2 h3 h4
      omega
    have hnc : (r.map nameOf).contains (some s) = false := by
      simp only [List.contains_eq_mem, List.mem_map, decide_eq_false_iff_not, not_exists, not_and]
      intro y hy h
      obtain ⟨j, hj⟩ := List.mem_iff_getElem?.1 hy
      have := hu 0 (j + 1) x y s rfl hj hs ((nameOf_iff y s).1 h)
      omega
    rw [cmpJobs, cat_nil, ih _ (fun y hy => hn y (by simp [hy])) hu']
    rw [hx, hnc]
    simp only [Option.getD_some, Bool.false_eq_true, if_false]
    constructor
    · rintro ⟨h1, h2⟩ j y t hy ht
      cases j with
      | zero =>
        simp at hy; subst hy
        have := named_unique hs ht
        subst this
        rcases hf : findJob s l' with _ | ⟨m', j'⟩
        · simp [hf] at h1
        · exact ⟨m', j', rfl, by simpa [hf] using h1⟩
      | succ j =>
        simp only [List.getElem?_cons_succ] at hy
        have := h2 j y t hy ht
        rwa [show i + 1 + j = i + (j + 1) by omega] at this
    · intro h
      refine ⟨?_, fun j y t hy ht => ?_⟩
      · obtain ⟨m', j', hf, hc⟩ := h 0 x s rfl hs
        simpa [hf] using hc
      · have := h (j + 1) y t hy ht
        rwa [show i + (j + 1) = i + 1 + j by omega] at this

/-- C17: two lists of jobs with different names are the same iff they have the same jobs in the same order; the attribute
`index` is ignored. -/
theorem compare_jobs_iff (a b : Node E) (l l' : List (Node E)) (hal : a.val = .list l) (hbl : b.val = .list l')
    (ha : GoMaps a) (hb : GoMaps b) (hw : WellNamed a) (hn : ∀ x ∈ l, ∃ s, Named x s) (hn' : ∀ x ∈ l', ∃ s, Named x s) (hu : UniqueNames l) (hu' : UniqueNames l') :
    cmpN a b ["jobs"] = some [] ↔ SameJobs l l' := by
  obtain ⟨av, as, aa⟩ := a
  obtain ⟨bv, bs, ba⟩ := b
  simp only [Node.val_mk] at hal hbl
  subst hal; subst hbl
  have ha' : ∀ y ∈ l, GoMaps y := by simp only [GoMaps, GoMapsV] at ha; exact GoMapsL_iff.1 ha
  have hb' : ∀ y ∈ l', GoMaps y := by simp only [GoMaps, GoMapsV] at hb; exact GoMapsL_iff.1 hb
  have hjob : ∀ x ∈ l, ∀ y ∈ l', ∀ s i j m', Named x s → y.val = .map m' → (cmpJob x i m' j (["jobs"] ++ [s]) = some [] ↔
      i = j ∧ (∀ f, f ≠ "index" → ((field x f).isSome ↔ (field y f).isSome)) ∧
    ∀ f u v, f ≠ "index" → field x f = some u → field y f = some v → SameDoc u v) := by
    intro x hx y hy s i j m' hs hm'
    obtain ⟨m, hm⟩ := named_map hs
    have hgx := ha' x hx
    have hgy := hb' y hy
    obtain ⟨k, hk⟩ := List.mem_iff_getElem?.1 hx
    have hwx : WellNamed x := wellNamed_child hw (i := .idx k) hk
    obtain ⟨xv, xs, xa⟩ := x
    obtain ⟨yv, ys, ya⟩ := y
    simp only [Node.val_mk] at hm hm'
    subst hm; subst hm'
    simp only [GoMaps, GoMapsV, GoMapsM_iff] at hgx hgy
    rw [cmpJob, cmpJobV, cat_nil, cmpAttrs_nil]
    simp only [Option.some.injEq, List.append_eq_nil_iff, extraFields_nil, field, child, Node.val_mk]
    have hidx : (indexDiff xs i j (["jobs"] ++ [s]) : List (Diff E)) = [] ↔ i = j := by
      unfold indexDiff; split <;> simp_all
    rw [hidx]
    have hstep : ∀ f u v, mget m f = some u → mget m' f = some v → (cmpN u v (["jobs"] ++ [s] ++ [f]) = some [] ↔ SameDoc u v) := by
      intro f u v hu hv
      exact cmp_same u v _ (hgx.2 _ (mget_some_mem hu)) (hgy.2 _ (mget_some_mem hv))
        (wellNamed_child hwx (i := .key f) hu) (safe_deep f (by simp))
    constructor
    · rintro ⟨h1, h2, h3⟩
      refine ⟨h2, fun f hf => ⟨fun h => ?_, fun h => ?_⟩, ?_⟩
      · obtain ⟨u, hu⟩ := Option.isSome_iff_exists.1 h
        obtain ⟨v, hv, -⟩ := h1 _ (mget_some_mem hu) hf
        exact Option.isSome_iff_exists.2 ⟨v, hv⟩
      · obtain ⟨v, hv⟩ := Option.isSome_iff_exists.1 h
        have := h3 f ((mem_mkeys_iff _ _).2 ⟨v, hv⟩)
        simp only [List.mem_cons, hf, false_or] at this
        exact Option.isSome_iff_exists.2 ((mem_mkeys_iff _ _).1 this)
      · intro f u v hf hu hv
        obtain ⟨v', hv', hc⟩ := h1 _ (mget_some_mem hu) hf
        simp only at hv' hc
        rw [hv] at hv'; cases hv'
        exact (hstep f u v hu hv).1 hc
    · rintro ⟨h1, h2, h3⟩
      refine ⟨fun e he hf => ?_, h1, fun f hf => ?_⟩
      · have hu := mget_of_mem hgx.1 he
        obtain ⟨v, hv⟩ := Option.isSome_iff_exists.1 ((h2 e.1 hf).1 (Option.isSome_iff_exists.2 ⟨_, hu⟩))
        exact ⟨v, hv, (hstep _ _ _ hu hv).2 (h3 _ _ _ hf hu hv)⟩
      · by_cases hi : f = "index"
        · simp [hi]
        · have := (h2 f hi).2 (Option.isSome_iff_exists.2 ((mem_mkeys_iff _ _).1 hf))
          rw [List.mem_cons]
          exact .inr ((mem_mkeys_iff _ _).2 (Option.isSome_iff_exists.1 this))
  rw [cmpN, cmpV]
  simp only [Node.val_mk, (jobsOK_iff l).2 hn, (jobsOK_iff l').2 hn', if_true, Bool.and_self]
  rw [cat_nil, cmpJobs_nil _ _ _ _ hn hu]
  simp only [Option.some.injEq, Nat.zero_add]
  have hextra : (extraJobs (l.map nameOf) l' ["jobs"] : List (Diff E)) = [] ↔ ∀ y ∈ l', ∀ s, Named y s → ∃ x ∈ l, Named x s := by
    simp only [extraJobs, List.map_eq_nil_iff, List.filter_eq_nil_iff, Bool.not_eq_true', List.contains_eq_mem,
      decide_eq_false_iff_not, not_not, List.mem_map]
    constructor
    · intro h y hy s hs
      obtain ⟨x, hx, e⟩ := h y hy
      rw [(nameOf_iff y s).2 hs] at e
      exact ⟨x, hx, (nameOf_iff x s).1 e⟩
    · intro h y hy
      obtain ⟨s, hs⟩ := hn' y hy
      obtain ⟨x, hx, hxs⟩ := h y hy s hs
      exact ⟨x, hx, by rw [(nameOf_iff x s).2 hxs, (nameOf_iff y s).2 hs]⟩
  rw [hextra]
  constructor
  · rintro ⟨h1, h2⟩
    have h3 : ∀ (i : Nat) x, l[i]? = some x → ∃ y, l'[i]? = some y ∧ (∀ f, f ≠ "index" → ((field x f).isSome ↔ (field y f).isSome)) ∧
        ∀ f u v, f ≠ "index" → field x f = some u → field y f = some v → SameDoc u v := by
      intro i x hx
      obtain ⟨s, hs⟩ := hn x (List.mem_of_getElem? hx)
      obtain ⟨m', j, hf, hc⟩ := h1 i x s hx hs
      obtain ⟨y, hy, hys, hyv⟩ := findJob_some hf
      obtain ⟨e, q⟩ := (hjob x (List.mem_of_getElem? hx) y (List.mem_of_getElem? hy) s i j m' hs hyv).1 hc
      subst e
      exact ⟨y, hy, q⟩
    refine ⟨Nat.le_antisymm ?_ ?_, ?_⟩
    · apply Decidable.byContradiction
      intro hlt
      have hlt' : l'.length < l.length := by omega
      obtain ⟨y, hy, -⟩ := h3 l'.length _ (List.getElem?_eq_getElem hlt')
      have := (List.getElem?_eq_some_iff.1 hy).1
      omega
    · apply Decidable.byContradiction
      intro hlt
      have hlt' : l.length < l'.length := by omega
      have hy : l'[l.length]? = some l'[l.length] := List.getElem?_eq_getElem hlt'
      obtain ⟨s, hs⟩ := hn' _ (List.getElem_mem hlt')
      obtain ⟨x, hx, hxs⟩ := h2 _ (List.getElem_mem hlt') s hs
      obtain ⟨i, hi⟩ := List.mem_iff_getElem?.1 hx
      obtain ⟨m', j, hf, hc⟩ := h1 i x s hi hxs
      obtain ⟨y, hy', hys, hyv⟩ := findJob_some hf
      obtain ⟨e, -⟩ := (hjob x hx y (List.mem_of_getElem? hy') s i j m' hxs hyv).1 hc
      have := hu' j l.length _ _ s hy' hy hys hs
      have := (List.getElem?_eq_some_iff.1 hi).1
      omega
    · intro i x y hx hy
      obtain ⟨y', hy', q⟩ := h3 i x hx
      rw [hy] at hy'; cases hy'
      exact q
  · rintro ⟨h1, h2⟩
    have hsame : ∀ (i : Nat) x y s, l[i]? = some x → l'[i]? = some y → (Named x s ↔ Named y s) := by
      intro i x y s hx hy
      have h := h2 i x y hx hy
      obtain ⟨sx, hsx⟩ := hn x (List.mem_of_getElem? hx)
      obtain ⟨sy, hsy⟩ := hn' y (List.mem_of_getElem? hy)
      suffices sx = sy by
        subst this
        exact ⟨fun h => by rw [named_unique h hsx]; exact hsy, fun h => by rw [named_unique h hsy]; exact hsx⟩
      obtain ⟨⟨m, kn, e1, e2, e3⟩, -⟩ := hsx
      obtain ⟨⟨m', kn', e1', e2', e3'⟩, -⟩ := hsy
      have hd := h.2 "name" kn kn' (by decide) (by simp only [field, child, e1]; exact e2) (by simp only [field, child, e1']; exact e2')
      rw [sameDoc_scalar (by rw [e3]; rintro ⟨_, ⟨⟩⟩) (by rw [e3]; rintro ⟨_, ⟨⟩⟩)] at hd
      have := agree_refl_kind hd
      rw [e3, e3'] at this
      exact this
    refine ⟨fun i x s hx hs => ?_, fun y hy s hs => ?_⟩
    · have hil : i < l'.length := by rw [← h1]; exact (List.getElem?_eq_some_iff.1 hx).1
      have hy : l'[i]? = some l'[i] := List.getElem?_eq_getElem hil
      have hys := (hsame i x _ s hx hy).1 hs
      rcases hf : findJob s l' with _ | ⟨m', j⟩
      · exact absurd hys (findJob_none hf _ (List.getElem_mem hil))
      · obtain ⟨y', hy', hys', hyv⟩ := findJob_some hf
        have hij := hu' i j _ _ s hy hy' hys hys'
        subst hij
        refine ⟨m', i, rfl, (hjob x (List.mem_of_getElem? hx) y' (List.mem_of_getElem? hy') s i i m' hs hyv).2 ⟨rfl, h2 i x y' hx hy'⟩⟩
    · obtain ⟨i, hi⟩ := List.mem_iff_getElem?.1 hy
      have hil : i < l.length := by rw [h1]; exact (List.getElem?_eq_some_iff.1 hi).1
      have hx : l[i]? = some l[i] := List.getElem?_eq_getElem hil
      exact ⟨_, List.getElem_mem hil, (hsame i _ y s hx hi).2 hs⟩

omit [DecidableEq E] in
theorem cat_none {α : Type} (x y : Option (List α)) : cat x y = none ↔ x = none ∨ y = none := by
  cases x <;> cases y <;> simp [cat]

theorem cmpFields_none (m m' : List (String × Node E)) (p : List String) :
    cmpFields m m' p = none ↔ ∃ e ∈ m, ∃ y, mget m' e.1 = some y ∧ cmpN e.2 y (p ++ [e.1]) = none := by
  induction m with
  | nil => simp [cmpFields]
  | cons e r ih =>
    obtain ⟨k, x⟩ := e
    rw [cmpFields, cat_none, ih]
    simp only [List.exists_mem_cons_iff]
    refine or_congr_left ?_
    rcases hg : mget m' k with _ | y <;> simp

theorem cmpAttrs_none (m m' : List (String × Node E)) (p : List String) :
    cmpAttrs m m' p = none ↔ ∃ e ∈ m, e.1 ≠ "index" ∧ ∃ y, mget m' e.1 = some y ∧ cmpN e.2 y (p ++ [e.1]) = none := by
  induction m with
  | nil => simp [cmpAttrs]
  | cons e r ih =>
    obtain ⟨k, x⟩ := e
    rw [cmpAttrs, cat_none, ih]
    simp only [List.exists_mem_cons_iff]
    refine or_congr_left ?_
    by_cases hk : k = "index"
    · simp [hk]
    · rcases hg : mget m' k with _ | y <;> simp [hk]

theorem cmpEntries_none (l l' : List (Node E)) (p : List String) : ∀ i,
    (cmpEntries i l l' p = none → ∃ x ∈ l, ∃ y ∈ l', ∃ k, (k ≠ "jobs" ∨ IsMap x.val) ∧ cmpN x y (p ++ [k]) = none) := by
  induction l with
  | nil => simp [cmpEntries]
  | cons x r ih =>
    intro i
    rw [cmpEntries, cat_none]
    rintro (h | h)
    · rw [findByNameOrIndex, findByIndex] at h
      rcases hx : nameOf x with _ | s
      · simp only [hx] at h
        rcases hg : l'[i]? with _ | y
        · simp [hg] at h
        · simp only [hg] at h
          exact ⟨x, by simp, y, List.mem_of_getElem? hg, _, .inl (indexKey_not_jobs i), h⟩
      · simp only [hx] at h
        rcases hf : findByName s l' with _ | y
        · simp only [hf] at h
          rcases hg : l'[i]? with _ | y
          · simp [hg] at h
          · simp only [hg] at h
            exact ⟨x, by simp, y, List.mem_of_getElem? hg, _, .inl (indexKey_not_jobs i), h⟩
        · simp only [hf] at h
          exact ⟨x, by simp, y, (findByName_some hf).1, _, .inr (named_map ((nameOf_iff x s).1 hx)), h⟩
    · obtain ⟨z, hz, q⟩ := ih _ h
      exact ⟨z, by simp [hz], q⟩

/-- outside of job lists the comparison does not crash -/
theorem cmp_total (a : Node E) : ∀ b p, GoMaps a → Safe p a b → cmpN a b p ≠ none := by
  refine Node.rec
    (motive_1 := fun v => ∀ s an b p, GoMapsV v → Safe p (.mk v s an) b → cmpV v s an b p ≠ none)
    (motive_2 := fun a => ∀ b p, GoMaps a → Safe p a b → cmpN a b p ≠ none)
    (motive_3 := fun l => ∀ a ∈ l, ∀ b p, GoMaps a → Safe p a b → cmpN a b p ≠ none)
    (motive_4 := fun m => ∀ e ∈ m, ∀ b p, GoMaps e.2 → Safe p e.2 b → cmpN e.2 b p ≠ none)
    (motive_5 := fun e => ∀ b p, GoMaps e.2 → Safe p e.2 b → cmpN e.2 b p ≠ none)
    ?_ ?_ ?_ ?_ ?_ ?_ ?_ ?_ ?_ ?_ ?_ ?_ ?_ ?_ ?_ ?_ a
  case refine_6 =>
    intro l ih s an b p hg hsafe
    simp only [GoMapsV, GoMapsL_iff] at hg
    rw [cmpV]
    rcases hbv : b.val with _ | x | x | x | x | l' | m' | x | x | x
    case list =>
      have hp : p ≠ ["jobs"] := fun h => hsafe.1 h ⟨⟨l, rfl⟩, ⟨l', hbv⟩⟩
      simp only [hp, if_false, ne_eq, cat_none, not_or]
      refine ⟨fun h => ?_, by simp⟩
      obtain ⟨x, hx, y, hy, k, hk, h⟩ := cmpEntries_none _ _ _ _ h
      refine ih x hx y _ (hg x hx) (safe_one k ?_ p) h
      rintro rfl
      rcases hk with h | ⟨m, h⟩
      · exact absurd rfl h
      · rintro ⟨⟨_, h'⟩, -⟩; rw [h] at h'; cases h'
    all_goals simp
  case refine_7 =>
    intro m ih s an b p hg hsafe
    simp only [GoMapsV, GoMapsM_iff] at hg
    rw [cmpV]
    rcases hbv : b.val with _ | x | x | x | x | l' | m' | x | x | x
    case map =>
      simp only [ne_eq, cat_none, cmpFields_none, not_or]
      refine ⟨?_, by simp⟩
      rintro ⟨e, he, y, hy, h⟩
      refine ih e he y _ (hg.2 e he) ?_ h
      by_cases hp : p = []
      · apply safe_one
        intro hk hxy
        refine hsafe.2 hp e.2 y ?_ ?_ hxy
        · simp only [field, child, Node.val_mk]
          rw [← hk]; exact mget_of_mem hg.1 he
        · simp only [field, child, hbv]
          rw [← hk]; exact hy
      · exact safe_deep _ hp
    case list =>
      simp only
      rcases hn : nameMap [] l' with _ | m'
      · simp
      · simp only [ne_eq, cat_none, cmpFields_none, not_or]
        refine ⟨?_, by simp⟩
        rintro ⟨e, he, y, hy, h⟩
        refine ih e he y _ (hg.2 e he) (safe_one _ ?_ p) h
        rintro - ⟨-, ⟨l0, h0⟩⟩
        by_cases hall : ∀ y ∈ l', ∃ s, Named y s
        · obtain ⟨m2, q1, q2, q3, q4⟩ := nameMap_spec l' hall
          rw [hn] at q1; cases q1
          obtain ⟨z, hz⟩ := lastSuch_exists (fun z => Named z e.1) l' ((q3 e.1).1 ((mem_mkeys_iff _ _).2 ⟨y, hy⟩))
          obtain ⟨w, hw, ⟨⟨mw, hmw⟩, -⟩⟩ := q4 e.1 z hz
          rw [hy] at hw; cases hw
          rw [h0] at hmw; cases hmw
        · rw [nameMap_none l' [] (by simpa using hall)] at hn; cases hn
    all_goals simp
  case refine_11 =>
    intro v s an ih b p hg hsafe
    rw [cmpN]
    exact ih s an b p (by simpa [GoMaps] using hg) hsafe
  case refine_12 => intro a h; cases h
  case refine_13 =>
    intro x r h1 h2 a h
    rcases List.mem_cons.1 h with rfl | h
    · exact h1
    · exact h2 a h
  case refine_14 => intro a h; cases h
  case refine_15 =>
    intro x r h1 h2 a h
    rcases List.mem_cons.1 h with rfl | h
    · exact h1
    · exact h2 a h
  case refine_16 => intro k n ih; exact ih
  all_goals
    intros
    rw [cmpV]
    split <;> simp

/-- comparing two job lists crashes if some job is not a map with a string name -/
theorem compare_jobs_crash (a b : Node E) (l l' : List (Node E)) (hal : a.val = .list l) (hbl : b.val = .list l') (h : ∃ x, (x ∈ l ∨ x ∈ l') ∧ ∀ s, ¬ Named x s) : cmpN a b ["jobs"] = none := by
  obtain ⟨av, as, aa⟩ := a
  simp only [Node.val_mk] at hal
  subst hal
  rw [cmpN, cmpV]
  have : (jobsOK l && jobsOK l') = false := by
    rw [Bool.and_eq_false_iff]
    obtain ⟨x, hx | hx, hs⟩ := h
    · left
      rw [← Bool.not_eq_true, jobsOK_iff]
      intro h; obtain ⟨s, h⟩ := h x hx; exact hs s h
    · right
      rw [← Bool.not_eq_true, jobsOK_iff]
      intro h; obtain ⟨s, h⟩ := h x hx; exact hs s h
  simp [hbl, this]

theorem cmpJob_total (x : Node E) (i : Nat) (m' : List (String × Node E)) (j : Nat) (s : String) (hx : IsMap x.val) (hg : GoMaps x) :
    cmpJob x i m' j ["jobs", s] ≠ none := by
  obtain ⟨m, hm⟩ := hx
  obtain ⟨xv, xs, xa⟩ := x
  simp only [Node.val_mk] at hm
  subst hm
  simp only [GoMaps, GoMapsV, GoMapsM_iff] at hg
  rw [cmpJob, cmpJobV]
  simp only [ne_eq, cat_none, cmpAttrs_none, not_or]
  refine ⟨?_, by simp⟩
  rintro ⟨e, he, -, y, -, h⟩
  exact cmp_total e.2 y _ (hg.2 e he) (safe_deep _ (by simp)) h

theorem cmpJobs_total (l' : List (Node E)) (l : List (Node E)) (hn : ∀ x ∈ l, ∃ s, Named x s) (hg : ∀ x ∈ l, GoMaps x) : ∀ i,
    cmpJobs i l l' ["jobs"] ≠ none := by
  induction l with
  | nil => intro i; simp [cmpJobs]
  | cons x r ih =>
    intro i
    rw [cmpJobs]
    simp only [ne_eq, cat_none, not_or]
    refine ⟨?_, ih (fun y hy => hn y (by simp [hy])) (fun y hy => hg y (by simp [hy])) _⟩
    obtain ⟨s, hs⟩ := hn x (by simp)
    split
    · simp
    · split
      · exact cmpJob_total x _ _ _ _ (named_map hs) (hg x (by simp))
      · simp

/-- C17 (defect): comparing two documents crashes exactly if both have a list `jobs` at the top and some job is not a map
with a string name. -/
theorem compare_crash_iff (a b : Node E) (ha : GoMaps a) :
    compareDocs a b = none ↔ ∃ x y l l', field a "jobs" = some x ∧ field b "jobs" = some y ∧ x.val = .list l ∧ y.val = .list l' ∧
      ∃ j, (j ∈ l ∨ j ∈ l') ∧ ∀ s, ¬ Named j s := by
  constructor
  · intro h
    by_cases hj : ∀ x y, field a "jobs" = some x → field b "jobs" = some y → ¬ (IsList x.val ∧ IsList y.val)
    · exact absurd h (cmp_total a b [] ha ⟨fun h => (by cases h), fun _ => hj⟩)
    · simp only [not_forall, not_not] at hj
      obtain ⟨x, y, hx, hy, ⟨l, hl⟩, ⟨l', hl'⟩⟩ := hj
      refine ⟨x, y, l, l', hx, hy, hl, hl', ?_⟩
      by_cases hall : (∀ x ∈ l, ∃ s, Named x s) ∧ ∀ x ∈ l', ∃ s, Named x s
      · exfalso
        obtain ⟨av, as, aa⟩ := a
        obtain ⟨bv, bs, ba⟩ := b
        cases av <;> simp only [field, child, Node.val_mk] at hx <;> try cases hx
        next m =>
        cases bv <;> simp only [field, child, Node.val_mk] at hy <;> try cases hy
        next m' =>
        simp only [GoMaps, GoMapsV, GoMapsM_iff] at ha
        simp only [compareDocs, cmpN, cmpV, Node.val_mk, cat_none, cmpFields_none] at h
        rcases h with ⟨e, he, z, hz, h⟩ | h
        · by_cases hk : e.1 = "jobs"
          · rw [hk] at hz
            rw [hy] at hz; cases hz
            have hex := mget_of_mem ha.1 he
            rw [hk, hx] at hex
            have hex := Option.some.inj hex
            rw [← hex, hk] at h
            have hgx := ha.2 _ (mget_some_mem hx)
            obtain ⟨xv, xs, xa⟩ := x
            simp only [Node.val_mk] at hl
            subst hl
            simp only [GoMaps, GoMapsV, GoMapsL_iff] at hgx
            simp only [List.nil_append, cmpN, cmpV, hl', (jobsOK_iff l).2 hall.1, (jobsOK_iff l').2 hall.2, Bool.and_self, if_true,
              cat_none] at h
            rcases h with h | h
            · exact cmpJobs_total l' l hall.1 hgx 0 h
            · cases h
          · exact cmp_total e.2 z _ (ha.2 e he) (safe_one _ (fun h => absurd h hk) []) h
        · cases h
      · rw [not_and_or] at hall
        rcases hall with h | h <;> simp only [not_forall, not_exists] at h
        · obtain ⟨j, hj, h⟩ := h; exact ⟨j, .inl hj, h⟩
        · obtain ⟨j, hj, h⟩ := h; exact ⟨j, .inr hj, h⟩
  · rintro ⟨x, y, l, l', hx, hy, hl, hl', hj⟩
    have hc := compare_jobs_crash x y l l' hl hl' hj
    obtain ⟨av, as, aa⟩ := a
    obtain ⟨bv, bs, ba⟩ := b
    cases av <;> simp only [field, child, Node.val_mk] at hx <;> try cases hx
    next m =>
    cases bv <;> simp only [field, child, Node.val_mk] at hy <;> try cases hy
    next m' =>
    simp only [compareDocs, cmpN, cmpV, Node.val_mk, cat_none, cmpFields_none]
    exact .inl ⟨("jobs", x), mget_some_mem hx, y, hy, hc⟩

/-- C17: documents with job lists of differently named jobs: no difference iff the other fields are the same and the job lists
are the same in order, up to the attribute `index`. -/
theorem compare_with_jobs (m m' : List (String × Node E)) (s s' : String) (an an' : Ann) (x y : Node E) (l l' : List (Node E))
    (ha : GoMaps (.mk (.map m) s an)) (hb : GoMaps (.mk (.map m') s' an')) (hw : WellNamed (.mk (.map m) s an))
    (hx : mget m "jobs" = some x) (hy : mget m' "jobs" = some y) (hl : x.val = .list l) (hl' : y.val = .list l')
    (hn : ∀ x ∈ l, ∃ s, Named x s) (hn' : ∀ x ∈ l', ∃ s, Named x s) (hu : UniqueNames l) (hu' : UniqueNames l') :
    compareDocs (.mk (.map m) s an) (.mk (.map m') s' an') = some [] ↔ (∀ k, k ∈ mkeys m ↔ k ∈ mkeys m') ∧ SameJobs l l' ∧
      ∀ k u v, k ≠ "jobs" → mget m k = some u → mget m' k = some v → SameDoc u v := by
  simp only [GoMaps, GoMapsV, GoMapsM_iff] at ha hb
  simp only [compareDocs, cmpN, cmpV, Node.val_mk]
  rw [cmpV_map_nil ha.1]
  have hj := compare_jobs_iff x y l l' hl hl' (ha.2 _ (mget_some_mem hx)) (hb.2 _ (mget_some_mem hy))
    (wellNamed_child hw (i := .key "jobs") hx) hn hn' hu hu'
  have hstep : ∀ k u v, k ≠ "jobs" → mget m k = some u → mget m' k = some v → (cmpN u v ([] ++ [k]) = some [] ↔ SameDoc u v) :=
    fun k u v hk hu hv => cmp_same u v _ (ha.2 _ (mget_some_mem hu)) (hb.2 _ (mget_some_mem hv))
      (wellNamed_child hw (i := .key k) hu) (safe_one k (fun h => absurd h hk) [])
  refine and_congr_right fun _ => ?_
  constructor
  · intro h
    exact ⟨hj.1 (h "jobs" x y hx hy), fun k u v hk hu hv => (hstep k u v hk hu hv).1 (h k u v hu hv)⟩
  · rintro ⟨h1, h2⟩ k u v hu hv
    by_cases hk : k = "jobs"
    · subst hk
      rw [hx] at hu; cases hu
      rw [hy] at hv; cases hv
      exact hj.2 h1
    · exact (hstep k u v hk hu hv).2 (h2 k u v hk hu hv)

omit [DecidableEq E] in
/-- documents with the same content are the same -/
theorem sameContent_sameDoc (a : Node E) : ∀ b, SameContent a b → SameDoc a b := by
  refine Node.rec
    (motive_1 := fun v => ∀ s an b, SameContent (.mk v s an) b → SameDoc (.mk v s an) b)
    (motive_2 := fun a => ∀ b, SameContent a b → SameDoc a b)
    (motive_3 := fun l => ∀ a ∈ l, ∀ b, SameContent a b → SameDoc a b)
    (motive_4 := fun m => ∀ e ∈ m, ∀ b, SameContent e.2 b → SameDoc e.2 b)
    (motive_5 := fun e => ∀ b, SameContent e.2 b → SameDoc e.2 b)
    ?_ ?_ ?_ ?_ ?_ ?_ ?_ ?_ ?_ ?_ ?_ ?_ ?_ ?_ ?_ ?_ a
  case refine_6 =>
    intro l ih s an b h
    have hk := agree_refl_kind h
    obtain ⟨bv, bs, ba⟩ := b
    cases bv <;> simp only [Node.val_mk, SameKind] at hk
    next l' =>
    obtain ⟨h1, h2⟩ := agree_list h
    exact .ordered _ _ l l' rfl rfl h1 (fun i x y hx hy => ih x (List.mem_of_getElem? hx) y (h2 i x y hx hy))
  case refine_7 =>
    intro l ih s an b h
    have hk := agree_refl_kind h
    obtain ⟨bv, bs, ba⟩ := b
    cases bv <;> simp only [Node.val_mk, SameKind] at hk
    next l' =>
    obtain ⟨h1, h2⟩ := agree_map h
    exact .map _ _ l l' rfl rfl h1 (fun i x y hx hy => ih _ (mget_some_mem hx) y (h2 i x y hx hy))
  case refine_11 => intro v s an ih b h; exact ih s an b h
  case refine_12 => intro a h; cases h
  case refine_13 =>
    intro x r h1 h2 a h
    rcases List.mem_cons.1 h with rfl | h
    · exact h1
    · exact h2 a h
  case refine_14 => intro a h; cases h
  case refine_15 =>
    intro x r h1 h2 a h
    rcases List.mem_cons.1 h with rfl | h
    · exact h1
    · exact h2 a h
  case refine_16 => intro k n ih; exact ih
  all_goals
    intros
    rename_i h
    exact .scalar _ _ (by rintro ⟨_, ⟨⟩⟩) (by rintro ⟨_, ⟨⟩⟩) h

/-- C17: a document (without duplicate names, NaN and a job list) has no difference to a document with the same content,
in particular to itself. -/
theorem compare_same_content (a b : Node E) (ha : GoMaps a) (hb : GoMaps b) (hw : WellNamed a) (h : SameContent a b)
    (hj : ∀ x, field a "jobs" = some x → ¬ IsList x.val) : compareDocs a b = some [] :=
  (compare_empty_iff a b ha hb hw (fun x _ hx _ hl => hj x hx hl.1)).2 (sameContent_sameDoc a b h)

theorem compare_self (a : Node E) (ha : GoMaps a) (hw : WellNamed a) (hn : NoNaN a)
    (hj : ∀ x, field a "jobs" = some x → ¬ IsList x.val) : compareDocs a a = some [] :=
  compare_same_content a a ha ha hw ((equiv_iff_same_content a a ha ha).1 (equiv_refl a ha hn)) hj

section witnesses
private def nd (v : Val Unit) : Node Unit := .mk v "" {}
private def named (n : String) (more : List (String × Node Unit)) : Node Unit := nd (.map (("name", nd (.str n)) :: more))

/-- a reordered list of named maps is no difference -/
example : compareDocs (nd (.map [("l", nd (.list [named "x" [("v", nd (.int 1))], named "y" []]))]))
    (nd (.map [("l", nd (.list [named "y" [], named "x" [("v", nd (.int 1))]]))])) = some [] := rfl

/-- a list of named maps standing for a map is no difference -/
example : compareDocs (nd (.map [("l", nd (.map [("x", nd (.map [("v", nd (.int 1))]))]))]))
    (nd (.map [("l", nd (.list [named "x" [("v", nd (.int 1))]]))])) = some [] := rfl

/-- C17 (defect): this is not symmetric -/
theorem compare_asymmetric : ∃ a b : Node Unit, compareDocs a b = some [] ∧ compareDocs b a ≠ some [] :=
  ⟨nd (.map [("x", nd (.map [("v", nd (.int 1))]))]), nd (.list [named "x" [("v", nd (.int 1))]]), rfl, by
    intro h; have : (compareDocs (nd (.list [named "x" [("v", nd (.int 1))]])) (nd (.map [("x", nd (.map [("v", nd (.int 1))]))]))).map List.length = some 0 := by rw [h]; rfl
    revert this; decide⟩

/-- C17 (defect): with names used twice a document differs from itself -/
theorem compare_self_differs : ∃ a : Node Unit, compareDocs a a ≠ some [] :=
  ⟨nd (.list [named "x" [("v", nd (.int 1))], named "x" [("v", nd (.int 2))]]), by
    intro h
    have : (compareDocs (nd (.list [named "x" [("v", nd (.int 1))], named "x" [("v", nd (.int 2))]]))
      (nd (.list [named "x" [("v", nd (.int 1))], named "x" [("v", nd (.int 2))]]))).map List.length = some 0 := by rw [h]; rfl
    revert this; decide⟩

/-- C17 (defect): with names used twice a difference can be missed -/
theorem compare_misses : ∃ a b : Node Unit, compareDocs a b = some [] ∧ ¬ SameContent a b :=
  ⟨nd (.list [named "x" [], named "x" []]), nd (.list [named "x" [], named "y" []]), rfl, by
    intro h
    have := h [.idx 1, .key "name"]
    simp [locate, child, nd, named, mget, Both, SameKind] at this⟩

end witnesses

end Spiff
