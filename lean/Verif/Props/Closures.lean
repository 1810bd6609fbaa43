import Verif.Spec.Closures
import Verif.Lemmas.Maps
/-
C81: the evaluation of functions. First part: the allowed depth does not matter; closed functions do not depend on the place of the call.
-/
namespace Spiff
open Spec

/-! ### More depth does not change a result -/

/-- undecided, or the same -/
def LeRes {α : Type} (a b : CRes α) : Prop := a = .fuel ∨ a = b

theorem LeRes.refl {α : Type} (a : CRes α) : LeRes a a := .inr rfl

theorem LeRes.bind {α β : Type} {a b : CRes α} {f g : α → CRes β} (h : LeRes a b) (hf : ∀ v, LeRes (f v) (g v)) : LeRes (a.bind f) (b.bind g) := by
  rcases h with h | h
  · subst h; exact .inl rfl
  · subst h; cases a with
    | ok v => exact hf v
    | _ => exact .inr rfl

theorem evalAll_le {ev ev' : LEx → CRes CVal} (h : ∀ e, LeRes (ev e) (ev' e)) : ∀ l, LeRes (evalAll ev l) (evalAll ev' l)
  | [] => .inr rfl
  | e :: r => by
    have ih := evalAll_le h r
    simp only [evalAll]
    rcases h e with he | he
    · rw [he]; exact .inl rfl
    · rw [he]; cases ev' e with
      | ok v => exact ih.bind (fun _ => .inr rfl)
      | later => exact ih.bind (fun _ => .inr rfl)
      | _ => exact .inr rfl

theorem applyClo_le {ev ev' : Locals → LEx → CRes CVal} (h : ∀ σ e, LeRes (ev σ e) (ev' σ e)) (σ : Locals) (i c a : Bool) (f : CVal)
    (named : List (String × CVal)) (args : List CVal) : LeRes (applyClo ev σ i c a f named args) (applyClo ev' σ i c a f named args) := by
  cases f with
  | clo ps va ds st hm body =>
    simp only [applyClo]
    cases callClo ps va ds st hm body c a named args with
    | run inp => exact h _ _
    | _ => exact .inr rfl
  | _ => exact .inr rfl

theorem mapVals_le {ap ap' : List CVal → CRes CVal} (h : ∀ l, LeRes (ap l) (ap' l)) (np : Nat) :
    ∀ l i, LeRes (mapVals ap np i l) (mapVals ap' np i l)
  | [], i => .inr rfl
  | v :: r, i => by
    have ih := mapVals_le h np r (i + 1)
    by_cases hn : np = 0
    · simp only [mapVals, hn, if_true]; exact .inr rfl
    · simp only [mapVals, hn, if_false]
      rcases h (if np = 1 then [v] else [.data (.int i), v]) with he | he
      · rw [he]; exact .inl rfl
      · rw [he]
        generalize ap' (if np = 1 then [v] else [.data (.int i), v]) = o
        cases o with
        | ok w =>
          have hb : LeRes ((mapVals ap np (i + 1) r).bind (fun vs => .ok (w :: vs))) ((mapVals ap' np (i + 1) r).bind (fun vs => .ok (w :: vs))) :=
            ih.bind (fun _ => .inr rfl)
          cases w with
          | data d => cases d with
            | nil => exact ih
            | _ => exact hb
          | _ => exact hb
        | _ => exact .inr rfl

theorem mapList_le {ap ap' : CVal → List CVal → CRes CVal} (h : ∀ f l, LeRes (ap f l) (ap' f l)) (c f : CVal) :
    LeRes (mapList ap c f) (mapList ap' c f) := by
  simp only [mapList]
  cases arity f with
  | none => exact .inr rfl
  | some np => cases c with
    | list l =>
      by_cases hn : 2 < np
      · simp only [hn, if_true]; exact .inr rfl
      · simp only [hn, if_false]
        exact (mapVals_le (h f) np l 0).bind (fun _ => .inr rfl)
    | _ => exact .inr rfl

theorem callWith_le {f f' : CRes CVal} {a a' : CRes (List CVal)} {k k' : CVal → List CVal → CRes CVal}
    (hf : LeRes f f') (ha : LeRes a a') (hk : ∀ v l, LeRes (k v l) (k' v l)) : LeRes (callWith f a k) (callWith f' a' k') := by
  rcases hf with h | h
  · subst h; exact .inl rfl
  · subst h; cases f with
    | ok v =>
      simp only [callWith]
      split
      · exact ha.bind (hk v)
      · exact .inr rfl
    | later => exact ha.bind (fun _ => .inr rfl)
    | _ => exact .inr rfl

theorem ceval_le (P : Prims) (D : Docs) (loc : Loc) : ∀ n σ e, LeRes (ceval P D loc n σ e) (ceval P D loc (n + 1) σ e)
  | 0, σ, e => .inl rfl
  | n + 1, σ, e => by
    have ih := ceval_le P D loc n
    have ihl := fun σ => evalAll_le (ih σ)
    cases e with
    | bin op a b => exact (ihl σ _).bind (fun _ => .inr rfl)
    | cond c t f =>
      refine (ih σ c).bind (fun v => ?_)
      split
      · exact ih σ t
      · exact ih σ f
    | or a b =>
      rw [ceval, ceval]
      rcases ih σ a with h | h
      · rw [h]; exact .inl rfl
      · rw [h]; cases ceval P D loc (n + 1) σ a with
        | fail => exact ih σ b
        | _ => exact .inr rfl
    | list l => exact (ihl σ _).bind (fun _ => .inr rfl)
    | fn m l => exact (ihl σ _).bind (fun _ => .inr rfl)
    | call c f ns as => exact callWith_le (ih σ f) (ihl σ as) (fun v l => applyClo_le ih σ _ _ _ _ _ _)
    | scope fs b => exact (ihl σ _).bind (fun vs => ih _ _)
    | mapping c f =>
      refine (ihl σ [c, f]).bind (fun vs => ?_)
      match vs with
      | [cv, fv] => exact mapList_le (fun g args => applyClo_le ih σ _ _ _ _ _ _) cv fv
      | [] => exact .inr rfl
      | [_] => exact .inr rfl
      | _ :: _ :: _ :: _ => exact .inr rfl
    | _ => exact .inr rfl

/-- **C81**: once an evaluation has a result, every larger depth gives the same result. -/
theorem eval_stable (P : Prims) (D : Docs) (loc : Loc) (σ : Locals) (e : LEx) (n m : Nat) (h : n ≤ m) (hr : ceval P D loc n σ e ≠ .fuel) :
    ceval P D loc m σ e = ceval P D loc n σ e := by
  induction h with
  | refl => rfl
  | step h ih =>
    rcases ceval_le P D loc _ σ e with h2 | h2
    · rw [ih] at h2; exact absurd h2 hr
    · rw [← h2, ih]

/-! ### Values that are the same -/

theorem closed_same {v : CVal} (h : Closed v) : SameVal v v := by
  induction h with
  | data d => exact .data d
  | @list l h ih =>
    refine .list rfl (fun i a b ha hb => ?_)
    rw [ha] at hb; cases hb
    exact ih a (List.mem_of_getElem? ha)
  | @map m h ih =>
    refine .map rfl (fun i a b ha hb => ?_)
    rw [ha] at hb; cases hb
    exact ih a (List.mem_of_getElem? ha)
  | clo h1 h2 ih =>
    refine .clo (fun x hx hp hs => ⟨h1 x hx hp hs, h1 x hx hp hs⟩) (fun x hx hp a b ha hb => ?_) rfl
    rw [ha] at hb; cases hb
    exact ih x hx hp a ha

theorem same_closed {v w : CVal} (h : SameVal v w) : v = w → Closed v := by
  induction h with
  | data d => exact fun _ => .data d
  | @list l l' hl h ih =>
    rintro he
    cases he
    refine .list (fun a ha => ?_)
    obtain ⟨i, hi⟩ := List.getElem?_of_mem ha
    exact ih i a a hi hi rfl
  | @map m m' hl h ih =>
    rintro he
    cases he
    refine .map (fun a ha => ?_)
    obtain ⟨i, hi⟩ := List.getElem?_of_mem ha
    exact ih i a a hi hi rfl
  | clo h1 h2 h3 ih =>
    rintro he
    cases he
    exact .clo (fun x hx hp hs => (h1 x hx hp hs).1) (fun x hx hp a ha => ih x hx hp a a ha ha rfl)

/-- **C81**: closed values are those that are the same as themselves. -/
theorem closed_iff (v : CVal) : Closed v ↔ SameVal v v := ⟨closed_same, fun h => same_closed h rfl⟩

theorem sameVals_list {l l' : List CVal} : SameVals l l' ↔ SameVal (.list l) (.list l') := by
  constructor
  · intro h
    refine .list h.length_eq (fun i a b ha hb => ?_)
    have hl := h.length_eq
    rw [SameVals, List.forall₂_iff_get] at h
    obtain ⟨hi, rfl⟩ := List.getElem?_eq_some_iff.1 ha
    obtain ⟨hi', rfl⟩ := List.getElem?_eq_some_iff.1 hb
    exact h.2 i hi hi'
  · intro h
    cases h with
    | list hl h =>
      rw [SameVals, List.forall₂_iff_get]
      exact ⟨hl, fun i h1 h2 => h i _ _ (List.getElem?_eq_getElem h1) (List.getElem?_eq_getElem h2)⟩

/-! ### Local scopes -/

/-- both bind `x`, to values that are the same -/
def SameSome (σ σ' : Locals) (x : String) : Prop := ∃ v w, mget σ x = some v ∧ mget σ' x = some w ∧ SameVal v w

/-- both bind `x`, to values that are the same, or none of them binds `x` -/
def SameAt (σ σ' : Locals) (x : String) : Prop := (mget σ x = none ∧ mget σ' x = none) ∨ SameSome σ σ' x

/-- the fields have the same names and values that are the same -/
def SameFields (l l' : List (String × CVal)) : Prop := List.Forall₂ (fun a b => a.1 = b.1 ∧ SameVal a.2 b.2) l l'

theorem mget_overlay (σ m : Locals) (x : String) : mget (overlay σ m) x = match mget m x with | some v => some v | none => mget σ x := by
  unfold overlay
  induction m with
  | nil => rfl
  | cons e r ih =>
    obtain ⟨k, v⟩ := e
    by_cases h : k = x
    · simp [mget, h]
    · simpa [mget, h] using ih

theorem sameSome_mset_self {m m' : Locals} {x : String} {v w : CVal} (h : SameVal v w) : SameSome (mset m x v) (mset m' x w) x :=
  ⟨v, w, mget_mset_self _ _ _, mget_mset_self _ _ _, h⟩

theorem sameAt_mset {m m' : Locals} {x y : String} {v w : CVal} (hm : SameAt m m' y) (h : SameVal v w) : SameAt (mset m x v) (mset m' x w) y := by
  by_cases hx : y = x
  · subst hx; exact .inr (sameSome_mset_self h)
  · simpa [SameAt, SameSome, mget_mset_ne _ _ hx] using hm

theorem sameSome_mset {m m' : Locals} {x y : String} {v w : CVal} (hm : SameSome m m' y) (h : SameVal v w) : SameSome (mset m x v) (mset m' x w) y := by
  by_cases hx : y = x
  · subst hx; exact sameSome_mset_self h
  · simpa [SameSome, mget_mset_ne _ _ hx] using hm

theorem setAllC_at {l l' : List (String × CVal)} (hl : SameFields l l') : ∀ {m m' : Locals} {x : String}, SameAt m m' x → SameAt (setAllC l m) (setAllC l' m') x := by
  induction hl with
  | nil => exact fun h => h
  | cons h _ ih =>
    intro m m' x hm
    simp only [setAllC, List.foldl_cons]
    rw [h.1]
    exact ih (sameAt_mset hm h.2)

theorem setAllC_keep {l l' : List (String × CVal)} (hl : SameFields l l') : ∀ {m m' : Locals} {x : String}, SameSome m m' x → SameSome (setAllC l m) (setAllC l' m') x := by
  induction hl with
  | nil => exact fun h => h
  | cons h _ ih =>
    intro m m' x hm
    simp only [setAllC, List.foldl_cons]
    rw [h.1]
    exact ih (sameSome_mset hm h.2)

theorem setAllC_some {l l' : List (String × CVal)} (hl : SameFields l l') : ∀ {m m' : Locals} {x : String}, x ∈ l.map (·.1) → SameSome (setAllC l m) (setAllC l' m') x := by
  induction hl with
  | nil => intro m m' x h; cases h
  | @cons a b r r' h hr ih =>
    intro m m' x hx
    simp only [setAllC, List.foldl_cons]
    rw [List.map_cons, List.mem_cons] at hx
    by_cases h1 : x ∈ r.map (·.1)
    · exact ih h1
    · rcases hx with hx | hx
      · subst hx
        rw [← h.1]
        exact setAllC_keep hr (sameSome_mset_self h.2)
      · exact absurd hx h1

theorem setAllC_not {l : List (String × CVal)} : ∀ {m : Locals} {x : String}, x ∉ l.map (·.1) → mget (setAllC l m) x = mget m x := by
  induction l with
  | nil => intros; rfl
  | cons e r ih =>
    intro m x hx
    rw [List.map_cons, List.mem_cons, not_or] at hx
    simp only [setAllC, List.foldl_cons]
    exact (ih hx.2).trans (mget_mset_ne _ _ hx.1)

theorem setAllC_fields {l l' m m' : List (String × CVal)} (hl : SameFields l l') (hm : SameFields m m') : SameFields (setAllC l m) (setAllC l' m') := by
  induction hl generalizing m m' with
  | nil => exact hm
  | @cons a b r r' h hr ih =>
    simp only [setAllC, List.foldl_cons]
    refine ih ?_
    rw [← h.1]
    clear ih hr
    induction hm with
    | nil => exact .cons ⟨rfl, h.2⟩ .nil
    | @cons c d s s' hcd hs ihs =>
      obtain ⟨c1, c2⟩ := c
      obtain ⟨d1, d2⟩ := d
      obtain ⟨hc, hd⟩ := hcd
      dsimp only at hc hd
      subst hc
      simp only [mset]
      by_cases hk : c1 = a.1
      · simp only [hk, if_true]; exact .cons ⟨rfl, h.2⟩ hs
      · simp only [hk, if_false]; exact .cons ⟨rfl, hd⟩ ihs

theorem fields_at {l l' : List (String × CVal)} (h : SameFields l l') (x : String) : SameAt l l' x := by
  induction h with
  | nil => exact .inl ⟨rfl, rfl⟩
  | @cons a b r r' h _ ih =>
    by_cases hx : a.1 = x
    · exact .inr ⟨a.2, b.2, by simp [mget, hx], by simp [mget, ← h.1, hx], h.2⟩
    · simpa [SameAt, SameSome, mget, hx, ← h.1] using ih

theorem fields_zip (ks : List String) {l l' : List CVal} (h : SameVals l l') : SameFields (ks.zip l) (ks.zip l') := by
  induction h generalizing ks with
  | nil => simp [SameFields]
  | cons h _ ih =>
    cases ks with
    | nil => simp [SameFields]
    | cons k ks => exact .cons ⟨rfl, h⟩ (ih ks)

theorem zip_keys (ks : List String) (l : List CVal) : (ks.zip l).map (·.1) = ks.take l.length := by
  induction ks generalizing l with
  | nil => simp
  | cons k ks ih => cases l with
    | nil => simp
    | cons v l => simpa using ih l

theorem selfHome_some {σ σ' : Locals} (h : SameSome σ σ' SELF) : selfHome σ = selfHome σ' := by
  obtain ⟨v, w, hv, hw, hs⟩ := h
  cases hs <;> simp [selfHome, hv, hw]

theorem selfHome_get {σ σ' : Locals} (h : mget σ SELF = mget σ' SELF) : selfHome σ = selfHome σ' := by
  simp [selfHome, h]

theorem selfHome_none {σ : Locals} : selfHome σ = none ↔ mget σ SELF = none := by
  unfold selfHome
  cases mget σ SELF with
  | none => simp
  | some v => cases v <;> simp

/-! ### Calls -/

theorem packVals_same (n : Nat) (va : Bool) {l l' : List CVal} (h : SameVals l l') : SameVals (packVals n va l) (packVals n va l') := by
  have hl := h.length_eq
  simp only [packVals, ← hl]
  split
  · refine List.rel_append (List.forall₂_take _ h) (.cons ?_ .nil)
    exact sameVals_list.1 (List.forall₂_drop _ h)
  · exact h

theorem isListC_same {v w : CVal} (h : SameVal v w) : isListC v = isListC w := by cases h <;> rfl

theorem namedFits_same (ps : List String) (va : Bool) (k : Nat) {l l' : List (String × CVal)} (h : SameFields l l') :
    l.all (namedFits ps va k) = l'.all (namedFits ps va k) := by
  induction h with
  | nil => rfl
  | cons h _ ih =>
    simp only [List.all_cons, ih]
    congr 1
    simp only [namedFits, h.1, isListC_same h.2]

theorem named_params {ps : List String} {va : Bool} {k : Nat} {l : List (String × CVal)} (h : l.all (namedFits ps va k) = true) (x : String)
    (hx : x ∈ l.map (·.1)) : x ∈ ps := by
  obtain ⟨a, ha, rfl⟩ := List.mem_map.1 hx
  have := List.all_eq_true.1 h a ha
  simp only [namedFits] at this
  cases hi : ps.findIdx? (· = a.1) with
  | none => rw [hi] at this; cases this
  | some i =>
    obtain ⟨hi1, hi2, _⟩ := List.findIdx?_eq_some_iff_getElem.1 hi
    have : ps[i] = a.1 := by simpa using hi2
    rw [← this]; exact List.getElem_mem hi1

theorem fill_same (va : Bool) (ds : List (String × Lit)) {nm nm' : List (String × CVal)} (hn : SameFields nm nm') : ∀ (ps : List String) (m m' : Locals),
    (fillC va ds nm ps m = none ∧ fillC va ds nm' ps m' = none) ∨
    ∃ r r', fillC va ds nm ps m = some r ∧ fillC va ds nm' ps m' = some r' ∧
      (∀ x, SameSome m m' x → SameSome r r' x) ∧ (∀ x ∈ ps, SameSome r r' x) ∧ (∀ x, x ∉ ps → mget r x = mget m x ∧ mget r' x = mget m' x)
  | [], m, m' => .inr ⟨m, m', rfl, rfl, fun _ h => h, by simp, fun _ _ => ⟨rfl, rfl⟩⟩
  | p :: ps, m, m' => by
    have step : ∀ v w, SameVal v w →
        (fillC va ds nm ps (mset m p v) = none ∧ fillC va ds nm' ps (mset m' p w) = none) ∨
        ∃ r r', fillC va ds nm ps (mset m p v) = some r ∧ fillC va ds nm' ps (mset m' p w) = some r' ∧
          (∀ x, SameSome m m' x → SameSome r r' x) ∧ (∀ x ∈ p :: ps, SameSome r r' x) ∧
          (∀ x, x ∉ p :: ps → mget r x = mget m x ∧ mget r' x = mget m' x) := by
      intro v w hvw
      rcases fill_same va ds hn ps (mset m p v) (mset m' p w) with h | ⟨r, r', h1, h2, h3, h4, h5⟩
      · exact .inl h
      · refine .inr ⟨r, r', h1, h2, fun x hx => h3 x (sameSome_mset hx hvw), fun x hx => ?_, fun x hx => ?_⟩
        · rcases List.mem_cons.1 hx with rfl | hx
          · exact h3 x (sameSome_mset_self hvw)
          · exact h4 x hx
        · rw [List.mem_cons, not_or] at hx
          obtain ⟨h6, h7⟩ := h5 x hx.2
          rw [h6, h7]
          exact ⟨mget_mset_ne _ _ hx.1, mget_mset_ne _ _ hx.1⟩
    simp only [fillC]
    rcases fields_at hn p with ⟨h1, h2⟩ | ⟨v, w, h1, h2, h3⟩
    · rw [h1, h2]
      dsimp only
      cases mget ds p with
      | some d => exact step _ _ (.data d)
      | none =>
        dsimp only
        by_cases hv : va = true ∧ ps = []
        · simp only [hv, and_self, if_true]
          have := step (.list []) (.list []) (.list rfl (by simp))
          simpa only [hv] using this
        · simp only [hv, if_false]; exact .inl ⟨trivial, trivial⟩
    · rw [h1, h2]; exact step v w h3

/-- calls that are the same: the same error, functions that are the same, or local scopes that agree on what the body needs -/
inductive SameCalled (ps : List String) (st st' : Locals) : Called → Called → Prop
  | err : SameCalled ps st st' .err .err
  | curried {f f'} : SameVal f f' → SameCalled ps st st' (.curried f) (.curried f')
  | run {m m'} : (∀ x ∈ ps, SameSome m m' x) → (∀ x, x ∉ ps → mget m x = mget st x ∧ mget m' x = mget st' x) → SameCalled ps st st' (.run m) (.run m')

theorem callClo_same {ps : List String} {va : Bool} {ds : List (String × Lit)} {st st' : Locals} {h : Loc} {body : LEx}
    (hf : SameVal (.clo ps va ds st h body) (.clo ps va ds st' h body)) (c a : Bool) {nm nm' : List (String × CVal)} (hn : SameFields nm nm')
    {l l' : List CVal} (hl : SameVals l l') :
    SameCalled ps st st' (callClo ps va ds st h body c a nm l) (callClo ps va ds st' h body c a nm' l') := by
  have hv := packVals_same ps.length va hl
  have hlen := hv.length_eq
  have hemp : nm.isEmpty = nm'.isEmpty := by cases hn <;> rfl
  simp only [callClo, ← hlen, ← namedFits_same _ _ _ hn, ← hemp]
  generalize packVals ps.length va l = vs at hv hlen
  generalize packVals ps.length va l' = vs' at hv hlen
  by_cases h1 : ps.length < vs.length
  · simp only [h1, if_true]; exact .err
  · simp only [h1, if_false]
    by_cases h2 : nm.all (namedFits ps va vs.length) = true
    · simp only [h2, Bool.not_true, Bool.false_eq_true, if_false]
      have hz := fields_zip ps hv
      have hkeys : (ps.zip vs).map (·.1) = ps.take vs.length := by
        exact zip_keys ps vs
      have hkeys' : (ps.zip vs').map (·.1) = ps.take vs.length := by
        rw [zip_keys, hlen]
      have hnk : nm'.map (·.1) = nm.map (·.1) := by
        clear hemp h2
        induction hn with
        | nil => rfl
        | cons h _ ih => simp [h.1, ih]
      -- positional and named parameters are bound
      have hgiven : ∀ x, x ∈ ps.take vs.length ∨ x ∈ nm.map (·.1) →
          SameSome (setAllC (ps.zip vs) (setAllC nm st)) (setAllC (ps.zip vs') (setAllC nm' st')) x := by
        intro x hx
        rcases hx with hx | hx
        · exact setAllC_some hz (by rwa [hkeys])
        · exact setAllC_keep hz (setAllC_some hn hx)
      have hother : ∀ x, x ∉ ps → mget (setAllC (ps.zip vs) (setAllC nm st)) x = mget st x ∧ mget (setAllC (ps.zip vs') (setAllC nm' st')) x = mget st' x := by
        intro x hx
        have ht : x ∉ ps.take vs.length := fun h => hx (List.mem_of_mem_take h)
        have hm : x ∉ nm.map (·.1) := fun h => hx (named_params h2 x h)
        rw [setAllC_not (by rwa [hkeys]), setAllC_not hm, setAllC_not (by rwa [hkeys']), setAllC_not (by rwa [hnk])]
        exact ⟨rfl, rfl⟩
      have hdup : ∀ p, (mget nm p).isNone = (mget nm' p).isNone := by
        intro p
        rcases fields_at hn p with ⟨h3, h4⟩ | ⟨v, w, h3, h4, _⟩ <;> simp [h3, h4]
      split
      · -- currying
        have hlast : lastFree ps nm = lastFree ps nm' := by
          unfold lastFree
          cases ps.getLast? with
          | none => rfl
          | some p => exact hdup p
        rw [hlast]
        simp only [hdup]
        refine .curried ?_
        cases hf with
        | clo c1 c2 c3 =>
          have hneed : ∀ x, x ∉ (ps.drop vs.length).filter (fun p => (mget nm' p).isNone) → x ∈ ps →
              SameSome (setAllC (ps.zip vs) (setAllC nm st)) (setAllC (ps.zip vs') (setAllC nm' st')) x := by
            intro x hx hp
            refine hgiven x ?_
            rw [← List.take_append_drop vs.length ps, List.mem_append] at hp
            rcases hp with hp | hp
            · exact .inl hp
            · refine .inr (Classical.byContradiction (fun hm => hx ?_))
              rw [List.mem_filter]
              refine ⟨hp, ?_⟩
              rw [← hdup, Option.isNone_iff_eq_none, mget_none_iff]
              exact hm
          refine .clo (fun x hx hp hs => ?_) (fun x hx hp v w hv hw => ?_) ?_
          · by_cases hxp : x ∈ ps
            · obtain ⟨v, w, h3, h4, _⟩ := hneed x hp hxp
              simp [h3, h4]
            · rw [(hother x hxp).1, (hother x hxp).2]
              exact c1 x hx hxp hs
          · by_cases hxp : x ∈ ps
            · obtain ⟨v1, w1, h3, h4, h5⟩ := hneed x hp hxp
              rw [hv] at h3; rw [hw] at h4
              cases h3; cases h4; exact h5
            · rw [(hother x hxp).1] at hv
              rw [(hother x hxp).2] at hw
              exact c2 x hx hxp v w hv hw
          · by_cases hk : SELF ∈ ps.take vs.length ∨ SELF ∈ nm.map (·.1)
            · exact selfHome_some (hgiven _ hk)
            · rw [not_or] at hk
              have e1 : mget (setAllC (ps.zip vs) (setAllC nm st)) SELF = mget st SELF := by
                rw [setAllC_not (by rw [hkeys]; exact hk.1), setAllC_not hk.2]
              have e2 : mget (setAllC (ps.zip vs') (setAllC nm' st')) SELF = mget st' SELF := by
                rw [setAllC_not (by rw [hkeys']; exact hk.1), setAllC_not (by rw [hnk]; exact hk.2)]
              rw [selfHome_get e1, selfHome_get e2, c3]
      · rcases fill_same va ds hn (ps.drop vs.length) (setAllC (ps.zip vs) (setAllC nm st)) (setAllC (ps.zip vs') (setAllC nm' st')) with
          ⟨h3, h4⟩ | ⟨r, r', h3, h4, h5, h6, h7⟩
        · rw [h3, h4]; exact .err
        · rw [h3, h4]
          refine .run (fun x hx => ?_) (fun x hx => ?_)
          · rw [← List.take_append_drop vs.length ps, List.mem_append] at hx
            rcases hx with hx | hx
            · exact h5 x (hgiven x (.inl hx))
            · exact h6 x hx
          · have := h7 x (fun h => hx (List.mem_of_mem_drop h))
            rw [this.1, this.2]
            exact hother x hx
    · have h2' : nm.all (namedFits ps va vs.length) = false := by simpa using h2
      simp only [h2', Bool.not_false, if_true]; exact .err

end Spiff
