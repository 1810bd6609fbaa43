import Verif.Spec.Intrinsics
import Verif.Props.Alternatives
import Verif.Props.Delay4
/-
C64: the intrinsic functions defined, valid, require, optional, stub and catch.
-/
namespace Spiff

theorem ev_kinds (o : Ev) : (∃ v, o.Is v) ∨ o.Undefined ∨ o.Left ∨ o.Fails ∨ o = .crash := by
  cases o with
  | crash => exact .inr (.inr (.inr (.inr rfl)))
  | fail i => exact .inr (.inr (.inr (.inl ⟨i, rfl⟩)))
  | val v i =>
    by_cases hv : ∃ e, v = .expr e
    · obtain ⟨e, rfl⟩ := hv
      exact .inr (.inr (.inl ⟨e, i, rfl⟩))
    · have hv' : ∀ e, v ≠ .expr e := fun e h => hv ⟨e, h⟩
      cases hu : i.undefined with
      | false => exact .inl ⟨v, i, rfl, hu, hv'⟩
      | true => exact .inr (.inl ⟨v, i, rfl, hv', hu⟩)

theorem resolve_value {v : Val Ex} {i : Info} (a : Ex) (info : Option Info) (h : ∀ e, v ≠ .expr e) :
    resolve a info (.val v i) = .done v (joinInfo info i) := by
  cases v <;> first | rfl | exact absurd rfl (h _)

/-- one argument of `defined` -/
theorem definedEv_cons (e a : Ex) (o : Ev) (r : List (Ex × Ev)) :
    ((∃ v, o.Is v) → definedEv e true ((a, o) :: r) = definedEv e true r) ∧
    (o.Undefined ∨ o.Fails → definedEv e true ((a, o) :: r) = .val (.bool false) {}) ∧
    (o.Left → definedEv e true ((a, o) :: r) = definedEv e false r) ∧
    (o ≠ .crash → definedEv e false ((a, o) :: r) = definedEv e false r) ∧
    (∀ x, o = .crash → definedEv e x ((a, o) :: r) = .crash) := by
  refine ⟨?_, ?_, ?_, ?_, ?_⟩
  · rintro ⟨v, i, rfl, hu, hv⟩
    simp [definedEv, resolve_value a none hv, joinInfo, hu]
  · rintro (⟨v, i, rfl, hv, hu⟩ | ⟨i, rfl⟩)
    · simp [definedEv, resolve_value a none hv, joinInfo, hu]
    · simp [definedEv, resolve]
  · rintro ⟨e', i, rfl⟩
    simp [definedEv, resolve]
  · intro hc
    rcases ev_kinds o with ⟨v, i, rfl, hu, hv⟩ | ⟨v, i, rfl, hv, hu⟩ | ⟨e', i, rfl⟩ | ⟨i, rfl⟩ | rfl
    · simp [definedEv, resolve_value a none hv]
    · simp [definedEv, resolve_value a none hv]
    · simp [definedEv, resolve]
    · simp [definedEv, resolve]
    · exact absurd rfl hc
  · rintro x rfl
    simp [definedEv, resolve]

theorem definedEv_pending (e : Ex) (l : List (Ex × Ev)) :
    ((∀ x ∈ l, x.2 ≠ .crash) → definedEv e false l = .val (.expr e) {}) ∧
    ((∃ x ∈ l, x.2 = .crash) → definedEv e false l = .crash) := by
  induction l with
  | nil => simp [definedEv]
  | cons x r ih =>
    obtain ⟨a, o⟩ := x
    obtain ⟨_, _, _, h4, h5⟩ := definedEv_cons e a o r
    by_cases hc : o = .crash
    · refine ⟨fun h => absurd hc (h (a, o) (by simp)), fun _ => h5 _ hc⟩
    · rw [h4 hc]
      refine ⟨fun h => ih.1 (fun x hx => h x (by simp [hx])), ?_⟩
      rintro ⟨x, hx, he⟩
      rcases List.mem_cons.1 hx with rfl | hx
      · exact absurd he hc
      · exact ih.2 ⟨x, hx, he⟩

/-- what `defined` yields for given outcomes of its arguments: exactly one of these cases applies -/
theorem definedEv_cases (e : Ex) (l : List (Ex × Ev)) :
    ((∀ x ∈ l, ∃ v, x.2.Is v) ∧ definedEv e true l = .val (.bool true) {}) ∨
    (FirstOther l (fun x => ∃ v, x.2.Is v) (fun x => x.2.Undefined ∨ x.2.Fails) (fun _ => True) ∧ definedEv e true l = .val (.bool false) {}) ∨
    (FirstOther l (fun x => ∃ v, x.2.Is v) (fun x => x.2.Left) (fun x => x.2 ≠ .crash) ∧ definedEv e true l = .val (.expr e) {}) ∨
    ((∃ x ∈ l, x.2 = .crash) ∧ definedEv e true l = .crash) := by
  induction l with
  | nil => left; simp [definedEv]
  | cons x r ih =>
    obtain ⟨a, o⟩ := x
    obtain ⟨h1, h2, h3, h4, h5⟩ := definedEv_cons e a o r
    rcases ev_kinds o with ho | ho | ho | ho | ho
    · rw [h1 ho]
      rcases ih with ⟨g1, g2⟩ | ⟨⟨pre, y, post, rfl, g1, g2, g3⟩, g4⟩ | ⟨⟨pre, y, post, rfl, g1, g2, g3⟩, g4⟩ | ⟨⟨y, hy, g1⟩, g2⟩
      · left
        refine ⟨?_, g2⟩
        intro y hy
        rcases List.mem_cons.1 hy with rfl | hy
        · exact ho
        · exact g1 y hy
      · right; left
        refine ⟨⟨(a, o) :: pre, y, post, rfl, ?_, g2, g3⟩, g4⟩
        intro z hz
        rcases List.mem_cons.1 hz with rfl | hz
        · exact ho
        · exact g1 z hz
      · right; right; left
        refine ⟨⟨(a, o) :: pre, y, post, rfl, ?_, g2, g3⟩, g4⟩
        intro z hz
        rcases List.mem_cons.1 hz with rfl | hz
        · exact ho
        · exact g1 z hz
      · right; right; right
        exact ⟨⟨y, by simp [hy], g1⟩, g2⟩
    · right; left
      exact ⟨⟨[], _, r, rfl, by simp, .inl ho, by simp⟩, h2 (.inl ho)⟩
    · rw [h3 ho]
      by_cases hc : ∃ x ∈ r, x.2 = .crash
      · right; right; right
        obtain ⟨x, hx, he⟩ := hc
        exact ⟨⟨x, by simp [hx], he⟩, (definedEv_pending e r).2 ⟨x, hx, he⟩⟩
      · right; right; left
        have hc' : ∀ x ∈ r, x.2 ≠ .crash := fun x hx he => hc ⟨x, hx, he⟩
        exact ⟨⟨[], _, r, rfl, by simp, ho, hc'⟩, (definedEv_pending e r).1 hc'⟩
    · right; left
      exact ⟨⟨[], _, r, rfl, by simp, .inr ho, by simp⟩, h2 (.inr ho)⟩
    · right; right; right
      exact ⟨⟨_, List.mem_cons_self, ho⟩, h5 _ ho⟩

theorem firstOther_map {l : List Ex} {f : Ex → Ev} {P Q R : Ev → Prop} :
    FirstOther (l.map (fun a => (a, f a))) (fun x => P x.2) (fun x => Q x.2) (fun x => R x.2) ↔
      FirstOther l (fun a => P (f a)) (fun a => Q (f a)) (fun a => R (f a)) := by
  constructor
  · rintro ⟨pre, y, post, he, h1, h2, h3⟩
    obtain ⟨p, q, rfl, hp, hq⟩ := List.map_eq_append_iff.1 he
    obtain ⟨z, zs, rfl, hz, hzs⟩ := List.map_eq_cons_iff.1 hq
    subst hp; subst hzs; subst hz
    refine ⟨p, z, zs, rfl, ?_, h2, ?_⟩
    · intro x hx; exact h1 _ (List.mem_map_of_mem hx)
    · intro x hx; exact h3 _ (List.mem_map_of_mem hx)
  · rintro ⟨pre, y, post, rfl, h1, h2, h3⟩
    refine ⟨pre.map (fun a => (a, f a)), (y, f y), post.map (fun a => (a, f a)), by simp, ?_, h2, ?_⟩
    · intro x hx
      obtain ⟨a, ha, rfl⟩ := List.mem_map.1 hx
      exact h1 a ha
    · intro x hx
      obtain ⟨a, ha, rfl⟩ := List.mem_map.1 hx
      exact h3 a ha

theorem eval_defined (X : EvLib) (args : List Ex) (b : Bind) (loc : Bool) :
    eval X (.node .defined args) b loc = definedEv (.node .defined args) true (args.map (fun a => (a, eval X a b true))) := by
  simp only [eval, sem, argEv_eq]

/-- two decompositions at the first element of another kind are at the same place -/
theorem firstOther_excl {α : Type} {l : List α} {P Q R Q' R' : α → Prop} (h : FirstOther l P Q R) (h' : FirstOther l P Q' R')
    (hq : ∀ x, Q x → ¬ P x) (hq' : ∀ x, Q' x → ¬ P x) : ∃ x ∈ l, Q x ∧ Q' x := by
  obtain ⟨pre, a, post, rfl, h1, h2, _⟩ := h
  obtain ⟨pre', a', post', he, h1', h2', _⟩ := h'
  rcases List.append_eq_append_iff.1 he with ⟨c, rfl, hc⟩ | ⟨c, rfl, hc⟩
  · cases c with
    | nil => cases hc; exact ⟨a, by simp, h2, h2'⟩
    | cons d c =>
      simp only [List.cons_append, List.cons.injEq] at hc
      obtain ⟨rfl, _⟩ := hc
      exact absurd (h1' a (by simp)) (hq a h2)
  · cases c with
    | nil => simp only [List.nil_append, List.cons.injEq] at hc; obtain ⟨rfl, _⟩ := hc; exact ⟨a', by simp, h2, h2'⟩
    | cons d c =>
      simp only [List.cons_append, List.cons.injEq] at hc
      obtain ⟨rfl, _⟩ := hc
      exact absurd (h1 a' (by simp)) (hq' a' h2')

theorem not_is_of {o : Ev} : (o.Undefined → ¬ ∃ v, o.Is v) ∧ (o.Fails → ¬ ∃ v, o.Is v) ∧ (o.Left → ¬ ∃ v, o.Is v) ∧
    (o.Left → ¬ o.Undefined) ∧ (o.Left → ¬ o.Fails) := by
  refine ⟨?_, ?_, ?_, ?_, ?_⟩
  · rintro ⟨v, i, rfl, hv, hu⟩ ⟨w, j, h, hj, _⟩
    cases h; rw [hu] at hj; cases hj
  · rintro ⟨i, rfl⟩ ⟨w, j, h, _⟩; cases h
  · rintro ⟨e, i, rfl⟩ ⟨w, j, h, _, hw⟩; cases h; exact hw e rfl
  · rintro ⟨e, i, rfl⟩ ⟨w, j, h, hw, _⟩; cases h; exact hw e rfl
  · rintro ⟨e, i, rfl⟩ ⟨j, h⟩; cases h

/-- **C64** (defined): `defined(a, …)` is true iff all arguments have a value; it is false iff the first argument without one fails or
is undefined; it is left as it is iff the first argument without a value is left. -/
theorem defined_spec (X : EvLib) (args : List Ex) (b : Bind) (loc : Bool) (hc : ∀ a ∈ args, eval X a b true ≠ .crash) :
    ((eval X (.node .defined args) b loc).Is (.bool true) ↔ ∀ a ∈ args, ∃ v, (eval X a b true).Is v) ∧
    ((eval X (.node .defined args) b loc).Is (.bool false) ↔
      FirstOther args (fun a => ∃ v, (eval X a b true).Is v) (fun a => (eval X a b true).Undefined ∨ (eval X a b true).Fails) (fun _ => True)) ∧
    ((eval X (.node .defined args) b loc).LeftAs (.node .defined args) ↔
      FirstOther args (fun a => ∃ v, (eval X a b true).Is v) (fun a => (eval X a b true).Left) (fun _ => True)) := by
  rw [eval_defined]
  have hcase := definedEv_cases (.node .defined args) (args.map (fun a => (a, eval X a b true)))
  rcases hcase with ⟨g1, g2⟩ | ⟨g1, g2⟩ | ⟨g1, g2⟩ | ⟨⟨x, hx, g1⟩, g2⟩
  · have hall : ∀ a ∈ args, ∃ v, (eval X a b true).Is v := fun a ha => g1 _ (List.mem_map_of_mem ha)
    rw [g2]
    refine ⟨⟨fun _ => hall, fun _ => ⟨{}, rfl, rfl, by simp⟩⟩, ⟨?_, ?_⟩, ⟨?_, ?_⟩⟩
    · rintro ⟨i, h, _⟩; cases h
    · rintro ⟨pre, a, post, rfl, _, h2, _⟩
      rcases h2 with h2 | h2
      · exact absurd (hall a (by simp)) (not_is_of.1 h2)
      · exact absurd (hall a (by simp)) (not_is_of.2.1 h2)
    · rintro ⟨i, h, _⟩; cases h
    · rintro ⟨pre, a, post, rfl, _, h2, _⟩
      exact absurd (hall a (by simp)) (not_is_of.2.2.1 h2)
  · have hf := (firstOther_map (P := fun o => ∃ v, o.Is v) (Q := fun o => o.Undefined ∨ o.Fails) (R := fun _ => True)).1 g1
    rw [g2]
    refine ⟨⟨?_, ?_⟩, ⟨fun _ => hf, fun _ => ⟨{}, rfl, rfl, by simp⟩⟩, ⟨?_, ?_⟩⟩
    · rintro ⟨i, h, _⟩; cases h
    · intro hall
      obtain ⟨pre, a, post, rfl, _, h2, _⟩ := hf
      rcases h2 with h2 | h2
      · exact absurd (hall a (by simp)) (not_is_of.1 h2)
      · exact absurd (hall a (by simp)) (not_is_of.2.1 h2)
    · rintro ⟨i, h, _⟩; cases h
    · intro hl
      obtain ⟨x, _, hx1, hx2⟩ := firstOther_excl hf hl (fun x h => h.elim not_is_of.1 not_is_of.2.1) (fun x h => not_is_of.2.2.1 h)
      exact absurd hx1 (fun h => h.elim (not_is_of.2.2.2.1 hx2) (not_is_of.2.2.2.2 hx2))
  · have hf := (firstOther_map (P := fun o => ∃ v, o.Is v) (Q := fun o => o.Left) (R := fun o => o ≠ .crash)).1 g1
    have hf' : FirstOther args (fun a => ∃ v, (eval X a b true).Is v) (fun a => (eval X a b true).Left) (fun _ => True) := by
      obtain ⟨pre, a, post, h0, h1, h2, _⟩ := hf
      exact ⟨pre, a, post, h0, h1, h2, by simp⟩
    rw [g2]
    refine ⟨⟨?_, ?_⟩, ⟨?_, ?_⟩, ⟨fun _ => hf', fun _ => ⟨{}, rfl, rfl⟩⟩⟩
    · rintro ⟨i, h, _⟩; cases h
    · intro hall
      obtain ⟨pre, a, post, rfl, _, h2, _⟩ := hf'
      exact absurd (hall a (by simp)) (not_is_of.2.2.1 h2)
    · rintro ⟨i, h, _⟩; cases h
    · intro hl
      obtain ⟨x, _, hx1, hx2⟩ := firstOther_excl hf' hl (fun x h => not_is_of.2.2.1 h) (fun x h => h.elim not_is_of.1 not_is_of.2.1)
      exact absurd hx2 (fun h => h.elim (not_is_of.2.2.2.1 hx1) (not_is_of.2.2.2.2 hx1))
  · obtain ⟨a, ha, rfl⟩ := List.mem_map.1 hx
    exact absurd g1 (hc a ha)

/-! ### valid -/

theorem value_of_not {o : Ev} : (o.Fails → ¬ ∃ v, o.Value v) ∧ (o.Left → ¬ ∃ v, o.Value v) ∧ (o.Left → ¬ o.Fails) := by
  refine ⟨?_, ?_, not_is_of.2.2.2.2⟩
  · rintro ⟨i, rfl⟩ ⟨w, j, h, _⟩; cases h
  · rintro ⟨e, i, rfl⟩ ⟨w, j, h, hw⟩; cases h; exact hw e rfl

theorem ev_kinds' (o : Ev) : (∃ v, o.Value v) ∨ o.Left ∨ o.Fails ∨ o = .crash := by
  rcases ev_kinds o with ⟨v, i, h, _, hv⟩ | ⟨v, i, h, hv, _⟩ | h | h | h
  · exact .inl ⟨v, i, h, hv⟩
  · exact .inl ⟨v, i, h, hv⟩
  · exact .inr (.inl h)
  · exact .inr (.inr (.inl h))
  · exact .inr (.inr (.inr h))

theorem validEv_cons (e a : Ex) (o : Ev) (r : List (Ex × Ev)) (valid : Bool) :
    (∀ v, o.Value v → validEv e true valid ((a, o) :: r) = validEv e true (valid && !v.isNil) r) ∧
    (o.Fails → validEv e true valid ((a, o) :: r) = .val (.bool false) {}) ∧
    (o.Left → validEv e true valid ((a, o) :: r) = validEv e false false r) ∧
    (o ≠ .crash → ∃ w, validEv e false valid ((a, o) :: r) = validEv e false w r) ∧
    (∀ x, o = .crash → validEv e x valid ((a, o) :: r) = .crash) := by
  refine ⟨?_, ?_, ?_, ?_, ?_⟩
  · rintro v ⟨i, rfl, hv⟩
    simp [validEv, resolve_value a none hv]
  · rintro ⟨i, rfl⟩
    simp [validEv, resolve]
  · rintro ⟨e', i, rfl⟩
    simp [validEv, resolve]
  · intro hc
    rcases ev_kinds' o with ⟨v, i, rfl, hv⟩ | ⟨e', i, rfl⟩ | ⟨i, rfl⟩ | rfl
    · exact ⟨_, by simp only [validEv, resolve_value a none hv]; rfl⟩
    · exact ⟨false, by simp [validEv, resolve]⟩
    · exact ⟨false, by simp [validEv, resolve]⟩
    · exact absurd rfl hc
  · rintro x rfl
    simp [validEv, resolve]

theorem validEv_pending (e : Ex) (l : List (Ex × Ev)) (hc : ∀ x ∈ l, x.2 ≠ .crash) : ∀ valid, validEv e false valid l = .val (.expr e) {} := by
  induction l with
  | nil => intro valid; simp [validEv]
  | cons x r ih =>
    intro valid
    obtain ⟨a, o⟩ := x
    obtain ⟨w, h⟩ := (validEv_cons e a o r valid).2.2.2.1 (hc (a, o) (by simp))
    rw [h]
    exact ih (fun x hx => hc x (by simp [hx])) w

theorem validEv_cases (e : Ex) (l : List (Ex × Ev)) (hc : ∀ x ∈ l, x.2 ≠ .crash) : ∀ valid,
    ((∀ x ∈ l, ∃ v, x.2.Value v) ∧ ∃ r, validEv e true valid l = .val (.bool r) {} ∧
      (r = true ↔ valid = true ∧ ∀ x ∈ l, ∃ v, x.2.Value v ∧ v ≠ .nil)) ∨
    (FirstOther l (fun x => ∃ v, x.2.Value v) (fun x => x.2.Fails) (fun _ => True) ∧ validEv e true valid l = .val (.bool false) {}) ∨
    (FirstOther l (fun x => ∃ v, x.2.Value v) (fun x => x.2.Left) (fun _ => True) ∧ validEv e true valid l = .val (.expr e) {}) := by
  induction l with
  | nil => intro valid; left; simp [validEv]
  | cons x r ih =>
    intro valid
    obtain ⟨a, o⟩ := x
    have hc' : ∀ x ∈ r, x.2 ≠ .crash := fun x hx => hc x (by simp [hx])
    obtain ⟨h1, h2, h3, h4, h5⟩ := validEv_cons e a o r valid
    rcases ev_kinds' o with ⟨v, ho⟩ | ho | ho | ho
    · rw [h1 v ho]
      have hcons : ∀ pre : List (Ex × Ev), (∀ x ∈ pre, ∃ v, x.2.Value v) → ∀ x ∈ (a, o) :: pre, ∃ v, x.2.Value v := by
        intro pre g1 z hz
        rcases List.mem_cons.1 hz with rfl | hz
        · exact ⟨v, ho⟩
        · exact g1 z hz
      rcases ih hc' (valid && !v.isNil) with ⟨g1, w, g2, g3⟩ | ⟨⟨pre, y, post, rfl, g1, g2, g3⟩, g4⟩ | ⟨⟨pre, y, post, rfl, g1, g2, g3⟩, g4⟩
      · left
        refine ⟨hcons r g1, w, g2, ?_⟩
        rw [g3]
        have hnil : v.isNil = false ↔ v ≠ .nil := by cases v <;> simp [Val.isNil]
        simp only [Bool.and_eq_true, Bool.not_eq_true', hnil, List.mem_cons, forall_eq_or_imp]
        constructor
        · rintro ⟨⟨h1, h2⟩, h3⟩
          exact ⟨h1, ⟨v, ho, h2⟩, h3⟩
        · rintro ⟨k1, ⟨v', ho', k2⟩, k3⟩
          obtain ⟨i, hi, _⟩ := ho
          obtain ⟨j, hj, _⟩ := ho'
          rw [hi] at hj
          cases hj
          exact ⟨⟨k1, k2⟩, k3⟩
      · right; left
        exact ⟨⟨(a, o) :: pre, y, post, rfl, hcons pre g1, g2, g3⟩, g4⟩
      · right; right
        exact ⟨⟨(a, o) :: pre, y, post, rfl, hcons pre g1, g2, g3⟩, g4⟩
    · right; right
      rw [h3 ho]
      exact ⟨⟨[], _, r, rfl, by simp, ho, by simp⟩, validEv_pending e r hc' _⟩
    · right; left
      exact ⟨⟨[], _, r, rfl, by simp, ho, by simp⟩, h2 ho⟩
    · exact absurd ho (hc (a, o) (by simp))

theorem eval_valid (X : EvLib) (args : List Ex) (b : Bind) (loc : Bool) :
    eval X (.node .valid args) b loc = validEv (.node .valid args) true true (args.map (fun a => (a, eval X a b true))) := by
  simp only [eval, sem, argEv_eq]

/-- **C64** (valid): `valid(a, …)` is true iff all arguments have a value other than nil; it is false iff all of them have a value, but one of
them nil, or the first one without value fails; it is left as it is iff the first one without a value is left. -/
theorem valid_spec (X : EvLib) (args : List Ex) (b : Bind) (loc : Bool) (hc : ∀ a ∈ args, eval X a b true ≠ .crash) :
    ((eval X (.node .valid args) b loc).Is (.bool true) ↔ ∀ a ∈ args, ∃ v, (eval X a b true).Value v ∧ v ≠ .nil) ∧
    ((eval X (.node .valid args) b loc).Is (.bool false) ↔
      (∀ a ∈ args, ∃ v, (eval X a b true).Value v) ∧ (∃ a ∈ args, (eval X a b true).Value .nil) ∨
      FirstOther args (fun a => ∃ v, (eval X a b true).Value v) (fun a => (eval X a b true).Fails) (fun _ => True)) ∧
    ((eval X (.node .valid args) b loc).LeftAs (.node .valid args) ↔
      FirstOther args (fun a => ∃ v, (eval X a b true).Value v) (fun a => (eval X a b true).Left) (fun _ => True)) := by
  rw [eval_valid]
  have hc' : ∀ x ∈ args.map (fun a => (a, eval X a b true)), x.2 ≠ .crash := by
    intro x hx
    obtain ⟨a, ha, rfl⟩ := List.mem_map.1 hx
    exact hc a ha
  rcases validEv_cases (.node .valid args) (args.map (fun a => (a, eval X a b true))) hc' true with ⟨g1, w, g2, g3⟩ | ⟨g1, g2⟩ | ⟨g1, g2⟩
  · have hall : ∀ a ∈ args, ∃ v, (eval X a b true).Value v := fun a ha => g1 _ (List.mem_map_of_mem ha)
    have hw : w = true ↔ ∀ a ∈ args, ∃ v, (eval X a b true).Value v ∧ v ≠ .nil := by
      rw [g3]
      constructor
      · rintro ⟨_, h⟩ a ha; exact h _ (List.mem_map_of_mem ha)
      · intro h
        refine ⟨rfl, ?_⟩
        intro x hx
        obtain ⟨a, ha, rfl⟩ := List.mem_map.1 hx
        exact h a ha
    have hw' : w = false ↔ ∃ a ∈ args, (eval X a b true).Value .nil := by
      constructor
      · rintro rfl
        by_contra hno
        have : ∀ a ∈ args, ∃ v, (eval X a b true).Value v ∧ v ≠ .nil := by
          intro a ha
          obtain ⟨v, hv⟩ := hall a ha
          refine ⟨v, hv, ?_⟩
          rintro rfl
          exact hno ⟨a, ha, hv⟩
        exact absurd (hw.2 this) (by simp)
      · rintro ⟨a, ha, i, hi, _⟩
        rcases hb : w with _ | _
        · rfl
        · obtain ⟨v, ⟨j, hj, _⟩, hne⟩ := hw.1 hb a ha
          rw [hi] at hj
          cases hj
          exact absurd rfl hne
    rw [g2]
    refine ⟨⟨?_, ?_⟩, ⟨?_, ?_⟩, ⟨?_, ?_⟩⟩
    · rintro ⟨i, h, _⟩; cases h; exact hw.1 rfl
    · intro h; rw [hw.2 h]; exact ⟨{}, rfl, rfl, by simp⟩
    · rintro ⟨i, h, _⟩; cases h; exact .inl ⟨hall, hw'.1 rfl⟩
    · rintro (⟨_, h⟩ | ⟨pre, a, post, rfl, _, h2, _⟩)
      · rw [hw'.2 h]; exact ⟨{}, rfl, rfl, by simp⟩
      · exact absurd (hall a (by simp)) (value_of_not.1 h2)
    · rintro ⟨i, h, _⟩; cases h
    · rintro ⟨pre, a, post, rfl, _, h2, _⟩
      exact absurd (hall a (by simp)) (value_of_not.2.1 h2)
  · have hf := (firstOther_map (P := fun o => ∃ v, o.Value v) (Q := fun o => o.Fails) (R := fun _ => True)).1 g1
    rw [g2]
    refine ⟨⟨?_, ?_⟩, ⟨fun _ => .inr hf, fun _ => ⟨{}, rfl, rfl, by simp⟩⟩, ⟨?_, ?_⟩⟩
    · rintro ⟨i, h, _⟩; cases h
    · intro hall
      obtain ⟨pre, a, post, rfl, _, h2, _⟩ := hf
      obtain ⟨v, hv, _⟩ := hall a (by simp)
      exact absurd ⟨v, hv⟩ (value_of_not.1 h2)
    · rintro ⟨i, h, _⟩; cases h
    · intro hl
      obtain ⟨x, _, hx1, hx2⟩ := firstOther_excl hf hl (fun x h => value_of_not.1 h) (fun x h => value_of_not.2.1 h)
      exact absurd hx1 (value_of_not.2.2 hx2)
  · have hf := (firstOther_map (P := fun o => ∃ v, o.Value v) (Q := fun o => o.Left) (R := fun _ => True)).1 g1
    rw [g2]
    refine ⟨⟨?_, ?_⟩, ⟨?_, ?_⟩, ⟨fun _ => hf, fun _ => ⟨{}, rfl, rfl⟩⟩⟩
    · rintro ⟨i, h, _⟩; cases h
    · intro hall
      obtain ⟨pre, a, post, rfl, _, h2, _⟩ := hf
      obtain ⟨v, hv, _⟩ := hall a (by simp)
      exact absurd ⟨v, hv⟩ (value_of_not.2.1 h2)
    · rintro ⟨i, h, _⟩; cases h
    · rintro (⟨h, _⟩ | hl)
      · obtain ⟨pre, a, post, rfl, _, h2, _⟩ := hf
        exact absurd (h a (by simp)) (value_of_not.2.1 h2)
      · obtain ⟨x, _, hx1, hx2⟩ := firstOther_excl hf hl (fun x h => value_of_not.2.1 h) (fun x h => value_of_not.1 h)
        exact absurd hx2 (value_of_not.2.2 hx1)

/-! ### require, optional, catch -/

/-- **C64** (require): `require(a)` yields the value of `a`, fails if there is none or it is nil, and is left as it is if `a` is left. -/
theorem require_spec (X : EvLib) (a : Ex) (b : Bind) (loc : Bool) :
    (∀ v, (eval X a b true).Value v → v ≠ .nil → (eval X (.node .require [a]) b loc).Is v) ∧
    ((eval X a b true).Fails ∨ (eval X a b true).Value .nil → (eval X (.node .require [a]) b loc).Fails) ∧
    ((eval X a b true).Left → (eval X (.node .require [a]) b loc).LeftAs (.node .require [a])) := by
  have he : eval X (.node .require [a]) b loc = requireEv (.node .require [a]) a (eval X a b true) := by
    simp only [eval, evalL, sem]
  rw [he]
  refine ⟨?_, ?_, ?_⟩
  · rintro v ⟨i, h, hv⟩ hn
    rw [h]
    have hnil : v.isNil = false := by cases v <;> first | rfl | exact absurd rfl hn
    simp only [requireEv, resolve_value a none hv, hnil]
    exact ⟨{}, rfl, rfl, hv⟩
  · rintro (⟨i, h⟩ | ⟨i, h, _⟩)
    · rw [h]; exact ⟨_, rfl⟩
    · rw [h]; exact ⟨_, rfl⟩
  · rintro ⟨e, i, h⟩
    rw [h]; exact ⟨{}, rfl, rfl⟩

/-- **C64** (optional): `optional(c, t)` is undefined if `c` fails, is undefined or false; it is `t` if `c` is true; it is left with what is
left of `c`, otherwise. -/
theorem optional_spec (X : EvLib) (c t : Ex) (b : Bind) (loc : Bool) :
    ((eval X c b false).Fails ∨ (eval X c b false).Undefined ∨ (∃ v, (eval X c b false).Is v ∧ toBool v = false) →
      (eval X (.node .optional [c, t]) b loc).Undefined) ∧
    (∀ v, (eval X c b false).Is v → toBool v = true → Ev.SameVal (eval X (.node .optional [c, t]) b loc) (eval X t b false)) ∧
    (∀ e i, eval X c b false = .val (.expr e) i → isExpand c = false →
      ∃ j, eval X (.node .optional [c, t]) b loc = .val (.expr (.node .optional [e, t])) j) := by
  have he : eval X (.node .optional [c, t]) b loc = optionalEv c t (eval X c b false) (eval X t b false) := by
    simp only [eval, evalL, sem]
  rw [he]
  refine ⟨?_, ?_, ?_⟩
  · rintro (⟨i, h⟩ | ⟨v, i, h, hv, hu⟩ | ⟨v, ⟨i, h, hu, hv⟩, hb⟩)
    · rw [h]; exact ⟨.nil, _, rfl, by simp, rfl⟩
    · rw [h]
      have hj : (joinInfo (some {}) i).undefined = true := by simp [joinInfo, Info.join, hu]
      simp only [optionalEv, resolve_value c (some {}) hv, hj, Bool.true_or, if_true]
      exact ⟨.nil, _, rfl, by simp, rfl⟩
    · rw [h]
      simp only [optionalEv, resolve_value c (some {}) hv, hb, Bool.not_false, Bool.or_true, if_true]
      exact ⟨.nil, _, rfl, by simp, rfl⟩
  · rintro v ⟨i, h, hu, hv⟩ hb
    rw [h]
    have hj : (joinInfo (some {}) i).undefined = false := by simp [joinInfo, Info.join, hu]
    simp only [optionalEv, resolve_value c (some {}) hv, hj, hb, Bool.not_true, Bool.or_self, Bool.false_eq_true, if_false]
    cases ht : eval X t b false with
    | crash => exact .crash
    | fail j => exact .fail
    | val r j => exact .value (by simp [Info.join, hj])
  · intro e i h hx
    rw [h]
    exact ⟨_, by simp only [optionalEv, resolve, keepWrapper, hx]; rfl⟩

/-- **C64** (catch): the expression created by `catch(a)` never fails: it yields a map telling whether `a` has a value, with the value or
the error message; it is left as it is if `a` is left. -/
theorem catch_spec (X : EvLib) (a : Ex) (b : Bind) (loc : Bool) :
    (∀ v, (eval X a b false).Value v → ∃ m, (eval X (.node .catch [a]) b loc).Is (.map m) ∧
      (mget m "valid").map Node.val = some (.bool true) ∧ (mget m "value").map Node.val = some v ∧ (mget m "error").map Node.val = some (.str "") ∧
      ∀ k, (mget m k).isSome → k = "valid" ∨ k = "value" ∨ k = "error") ∧
    (∀ i, eval X a b false = .fail i → ∃ m, (eval X (.node .catch [a]) b loc).Is (.map m) ∧
      (mget m "valid").map Node.val = some (.bool false) ∧ (mget m "error").map Node.val = some (.str i.issue) ∧
      ∀ k, (mget m k).isSome → k = "valid" ∨ k = "error") ∧
    ((eval X a b false).Left → ∃ i, eval X (.node .catch [a]) b loc = .val (.expr (.node .catch [a])) i) := by
  have he : eval X (.node .catch [a]) b loc = catchEv (.node .catch [a]) a b (eval X a b false) := by
    simp only [eval, evalL, sem]
  rw [he]
  refine ⟨?_, ?_, ?_⟩
  · rintro v ⟨i, h, hv⟩
    rw [h]
    simp only [catchEv, resolve_value a none hv]
    refine ⟨_, ⟨{}, rfl, rfl, by simp⟩, ?_, ?_, ?_, ?_⟩
    · simp [mget, Node.new, Node.val]
    · simp [mget, Node.new, Node.val]
    · simp [mget, Node.new, Node.val]
    · intro k hk
      by_contra hno
      simp only [not_or] at hno
      simp [mget, Ne.symm hno.1, Ne.symm hno.2.1, Ne.symm hno.2.2] at hk
  · intro i h
    rw [h]
    refine ⟨_, ⟨{}, rfl, rfl, by simp⟩, ?_, ?_, ?_⟩
    · simp [mget, Node.new, Node.val]
    · simp [mget, Node.new, Node.val, joinInfo]
    · intro k hk
      by_contra hno
      simp only [not_or] at hno
      simp [mget, Ne.symm hno.1, Ne.symm hno.2] at hk
  · rintro ⟨e, i, h⟩
    rw [h]
    exact ⟨_, rfl⟩

/-! ### stub -/

/-- Specification: the path denoted by the argument of `stub`: the path of a reference (which is not evaluated), a string with the components
of a path, or a list of strings; without argument or for the undefined value the path of the current node. -/
inductive StubPath (X : EvLib) (b : Bind) : List Ex → List String → Prop
  | none : StubPath X b [] b.path
  | ref (p : List String) (l : List Ex) : StubPath X b [.node (.ref p) l] p
  | str (e : Ex) (s : String) : (∀ p l, e ≠ .node (.ref p) l) → (eval X e b true).Value (.str s) → StubPath X b [e] (X.pathComponents s)
  | list (e : Ex) (l : List (Node Ex)) (p : List String) : (∀ p l, e ≠ .node (.ref p) l) → (eval X e b true).Value (.list l) →
      l.map Node.val = p.map Val.str → StubPath X b [e] p
  | undefined (e : Ex) : (∀ p l, e ≠ .node (.ref p) l) → (eval X e b true).Undefined → (eval X e b true).Value .nil → StubPath X b [e] b.path

theorem mapM_strs (f : Node Ex → Option String) (hf : ∀ n s, f n = some s ↔ n.val = .str s) (l : List (Node Ex)) (p : List String) :
    l.mapM f = some p ↔ l.map Node.val = p.map Val.str := by
  induction l generalizing p with
  | nil => cases p <;> simp
  | cons n r ih =>
    rw [List.mapM_cons]
    cases p with
    | nil => simp [Option.bind_eq_some_iff]
    | cons q p =>
      simp only [Option.bind_eq_bind, Option.pure_def, Option.bind_eq_some_iff, Option.some.injEq, List.cons.injEq, List.map_cons]
      constructor
      · rintro ⟨s, hs, t, ht, rfl, rfl⟩
        exact ⟨(hf n s).1 hs, (ih t).1 ht⟩
      · rintro ⟨h1, h2⟩
        exact ⟨q, (hf n q).2 h1, p, (ih p).2 h2, rfl, rfl⟩

theorem strList_map (l : List (Node Ex)) (p : List String) : strList l = some p ↔ l.map Node.val = p.map Val.str := by
  unfold strList
  apply mapM_strs
  intro n s
  cases n.val <;> simp

/-- **C64** (stub): `stub(…)` yields the value found at the denoted path in the stubs, and fails if there is none. -/
theorem stub_spec (X : EvLib) (args : List Ex) (b : Bind) (loc : Bool) (p : List String) (hp : StubPath X b args p) :
    (∀ n, b.stub p = some n → ∃ i, eval X (.node .stub args) b loc = .val n.val i ∧ i.undefined = false) ∧
    (b.stub p = none → (eval X (.node .stub args) b loc).Fails) := by
  have he : eval X (.node .stub args) b loc = stubEv X (.node .stub args) b (args.map (fun a => (a, eval X a b true))) := by
    simp only [eval, sem, argEv_eq]
  have hfind : ∀ q, ((∀ n, b.stub q = some n → ∃ i, stubFind b {} q = .val n.val i ∧ i.undefined = false) ∧
      (b.stub q = none → (stubFind b {} q).Fails)) := by
    intro q
    constructor
    · intro n hn; exact ⟨{}, by simp [stubFind, hn], rfl⟩
    · intro hn; exact ⟨_, by simp only [stubFind, hn]; rfl⟩
  suffices hs : eval X (.node .stub args) b loc = stubFind b {} p by
    rw [hs]; exact hfind p
  rw [he]
  have hop : ∀ e : Ex, (∀ p l, e ≠ .node (.ref p) l) → ∀ p, e.op ≠ .ref p := by
    rintro ⟨op, l⟩ h p rfl
    exact h p l rfl
  cases hp with
  | none => rfl
  | ref p l => rfl
  | str e s hr hv =>
    obtain ⟨i, h, hne⟩ := hv
    simp only [List.map_cons, List.map_nil, stubEv]
    split
    · rename_i q hq; exact absurd hq (hop e hr q)
    · rw [h, resolve_value e none hne]
  | list e l p hr hv hl =>
    obtain ⟨i, h, hne⟩ := hv
    simp only [List.map_cons, List.map_nil, stubEv]
    split
    · rename_i q hq; exact absurd hq (hop e hr q)
    · rw [h, resolve_value e none hne]
      simp only [(strList_map l p).2 hl]
  | undefined e hr hu hv =>
    obtain ⟨v, i, h, _, hi⟩ := hu
    obtain ⟨j, h', hne⟩ := hv
    rw [h] at h'
    cases h'
    simp only [List.map_cons, List.map_nil, stubEv]
    split
    · rename_i q hq; exact absurd hq (hop e hr q)
    · rw [h, resolve_value e none hne]
      simp [joinInfo, hi]

/-- a `stub` with an argument that is no reference -/
def stubArg (X : EvLib) (e : Ex) (b : Bind) : Res → Ev
  | .crash => .crash
  | .fail i => .fail i
  | .pend _ i => .val (.expr (.node .stub [e])) i
  | .done v i => match v with
    | .str s => stubFind b {} (X.pathComponents s)
    | .list l => match strList l with
      | some p => stubFind b {} p
      | none => i.error "stub() requires a string entries in list"
    | _ => if i.undefined then stubFind b {} b.path else i.error "stub() requires a string or reference argument"

theorem stub_arg (X : EvLib) (e : Ex) (b : Bind) (o : Ev) (hop : ∀ p, e.op ≠ .ref p) :
    stubEv X (.node .stub [e]) b [(e, o)] = stubArg X e b (resolve e none o) := by
  unfold stubEv
  obtain ⟨op, l⟩ := e
  cases op with
  | ref p => exact absurd rfl (hop p)
  | _ => simp only [Ex.op]; cases resolve _ none o <;> rfl

/-- **C64** (stub): other arguments: a remaining argument is kept, all others fail. -/
theorem stub_other (X : EvLib) (e : Ex) (b : Bind) (loc : Bool) (hr : ∀ p l, e ≠ .node (.ref p) l) :
    ((eval X e b true).Left → ∃ i, eval X (.node .stub [e]) b loc = .val (.expr (.node .stub [e])) i) ∧
    ((eval X e b true).Fails → (eval X (.node .stub [e]) b loc).Fails) ∧
    (∀ v, (eval X e b true).Is v → (∀ s, v ≠ .str s) → (∀ (l : List (Node Ex)) (p : List String), v = .list l → l.map Node.val ≠ p.map Val.str) →
      (eval X (.node .stub [e]) b loc).Fails) := by
  have he : eval X (.node .stub [e]) b loc = stubEv X (.node .stub [e]) b [(e, eval X e b true)] := by
    simp only [eval, sem, argEv_eq, List.map_cons, List.map_nil]
  have hop : ∀ p, e.op ≠ .ref p := by
    obtain ⟨op, l⟩ := e
    rintro p rfl
    exact hr p l rfl
  rw [he]
  refine ⟨?_, ?_, ?_⟩
  · rintro ⟨e', i, h⟩
    have hs := stub_arg X e b (eval X e b true) hop
    rw [h] at hs ⊢
    rw [hs]; exact ⟨_, rfl⟩
  · rintro ⟨i, h⟩
    have hs := stub_arg X e b (eval X e b true) hop
    rw [h] at hs ⊢
    rw [hs]; exact ⟨_, rfl⟩
  · rintro v ⟨i, h, hu, hne⟩ h1 h2
    · have hs := stub_arg X e b (eval X e b true) hop
      rw [h, resolve_value e none hne] at hs
      rw [h, hs]
      simp only [joinInfo]
      cases v with
      | str s => exact absurd rfl (h1 s)
      | list l =>
        have hn : strList l = none := by
          cases hl : strList l with
          | none => rfl
          | some p => exact absurd ((strList_map l p).1 hl) (h2 l p rfl)
        simp only [stubArg, hn]
        exact ⟨_, rfl⟩
      | expr x => exact absurd rfl (hne x)
      | _ => simp only [stubArg, hu]; exact ⟨_, rfl⟩

/-- Boolean test for the example below -/
def Ev.bool? : Ev → Option Bool | .val (.bool b) _ => some b | _ => none

/-- the hypotheses are met (`x` is still to be determined, `y` is 2, `n` is missing): -/
theorem intrinsics_example :
    (eval plainEvLib (.node .defined [Ex.ref ["y"], Ex.ref ["y"]]) (exampleBind .nil) false).bool? = some true ∧
    (eval plainEvLib (.node .defined [Ex.ref ["y"], Ex.ref ["n"], Ex.ref ["x"]]) (exampleBind (.expr (Ex.ref ["z"]))) false).bool? = some false ∧
    (eval plainEvLib (.node .defined [Ex.ref ["x"], Ex.ref ["n"]]) (exampleBind (.expr (Ex.ref ["z"]))) false).isLater = true ∧
    (eval plainEvLib (.node .valid [Ex.ref ["y"]]) (exampleBind .nil) false).bool? = some true ∧
    (eval plainEvLib (.node .valid [Ex.ref ["y"], Ex.ref ["x"]]) (exampleBind .nil) false).bool? = some false ∧
    (eval plainEvLib (.node .require [Ex.ref ["y"]]) (exampleBind .nil) false).int? = some 2 ∧
    (eval plainEvLib (.node .optional [Ex.ref ["x"], Ex.ref ["y"]]) (exampleBind (.bool true)) false).int? = some 2 ∧
    (eval plainEvLib (.node .stub [Ex.ref ["s"]]) { exampleBind .nil with stub := fun p => if p = ["s"] then some (Node.new (.int 3) "") else none }
      false).int? = some 3 := by
  decide +kernel

end Spiff
