import Verif.Model.Sanitize
import Verif.Spec.Data
import Verif.Props.Equiv
import Verif.Props.Comparison
/-
C18: conversion between decoded data and nodes.
-/
namespace Spiff
open Spec
variable {E : Type}

/-- induction over decoded data -/
theorem data_induction {P : Data → Prop}
    (nil : P .nil) (bool : ∀ b, P (.bool b)) (num : ∀ k i, P (.num k i)) (float : ∀ b, P (.float b)) (float32 : ∀ b, P (.float32 b))
    (str : ∀ s, P (.str s)) (time : ∀ t, P (.time t)) (seq : ∀ l, (∀ d ∈ l, P d) → P (.seq l))
    (dict : ∀ m : List (Key × Data), (∀ e ∈ m, P e.2) → P (.dict m)) (smap : ∀ m : List (String × Data), (∀ e ∈ m, P e.2) → P (.smap m))
    (conv : ∀ d, P d → P (.conv d)) (other : ∀ t, P (.other t)) (d : Data) : P d := by
  refine Data.rec (motive_1 := P) (motive_2 := fun l => ∀ d ∈ l, P d) (motive_3 := fun m => ∀ e ∈ m, P e.2)
    (motive_4 := fun m => ∀ e ∈ m, P e.2) (motive_5 := fun e => P e.2) (motive_6 := fun e => P e.2)
    nil bool num float float32 str time seq dict smap conv other ?_ ?_ ?_ ?_ ?_ ?_ ?_ ?_ d
  · intro d h; cases h
  · intro x r h1 h2 d h
    rcases List.mem_cons.1 h with rfl | h
    · exact h1
    · exact h2 d h
  · intro d h; cases h
  · intro x r h1 h2 d h
    rcases List.mem_cons.1 h with rfl | h
    · exact h1
    · exact h2 d h
  · intro d h; cases h
  · intro x r h1 h2 d h
    rcases List.mem_cons.1 h with rfl | h
    · exact h1
    · exact h2 d h
  · intro k d h; exact h
  · intro k d h; exact h

theorem consOpt_some {α : Type} {x : Option α} {r : Option (List α)} {l : List α} :
    consOpt x r = some l ↔ ∃ a b, x = some a ∧ r = some b ∧ l = a :: b := by
  cases x <;> cases r <;> simp [consOpt, eq_comm]

theorem consOpt_none {α : Type} {x : Option α} {r : Option (List α)} : consOpt x r = none ↔ x = none ∨ r = none := by
  cases x <;> cases r <;> simp [consOpt]

theorem sanitizeL_iff (src : String) (l : List Data) : ∀ r : List (Node E),
    sanitizeL src l = some r ↔ l.length = r.length ∧ ∀ (i : Nat) x y, l[i]? = some x → r[i]? = some y → sanitize src x = some y := by
  induction l with
  | nil => intro r; cases r <;> simp [sanitizeL]
  | cons d l ih =>
    intro r
    rw [sanitizeL, consOpt_some]
    constructor
    · rintro ⟨a, b, h1, h2, rfl⟩
      obtain ⟨h3, h4⟩ := (ih b).1 h2
      refine ⟨by simp [h3], ?_⟩
      intro i x y hx hy
      cases i with
      | zero => simp at hx hy; subst hx; subst hy; exact h1
      | succ i => simp at hx hy; exact h4 i x y hx hy
    · rintro ⟨h1, h2⟩
      cases r with
      | nil => simp at h1
      | cons a b =>
        exact ⟨a, b, h2 0 d a rfl rfl, (ih b).2 ⟨by simpa using h1, fun i x y hx hy => h2 (i + 1) x y hx hy⟩, rfl⟩

theorem sanitizeL_none (src : String) (l : List Data) : (sanitizeL src l : Option (List (Node E))) = none ↔
    ∃ d ∈ l, (sanitize src d : Option (Node E)) = none := by
  induction l with
  | nil => simp [sanitizeL]
  | cons d l ih => simp [sanitizeL, consOpt_none, ih]

theorem sanitizeM_iff (src : String) (l : List (String × Data)) : ∀ r : List (String × Node E),
    sanitizeM src l = some r ↔ l.map Prod.fst = r.map Prod.fst ∧
      ∀ (i : Nat) x y, l[i]? = some x → r[i]? = some y → sanitize src x.2 = some y.2 := by
  induction l with
  | nil => intro r; cases r <;> simp [sanitizeM]
  | cons d l ih =>
    intro r
    obtain ⟨k, d⟩ := d
    rw [sanitizeM, consOpt_some]
    constructor
    · rintro ⟨a, b, h1, h2, rfl⟩
      obtain ⟨h3, h4⟩ := (ih b).1 h2
      rw [Option.map_eq_some_iff] at h1
      obtain ⟨n, h1, rfl⟩ := h1
      refine ⟨by simp [h3], ?_⟩
      intro i x y hx hy
      cases i with
      | zero => simp at hx hy; subst hx; subst hy; exact h1
      | succ i => simp at hx hy; exact h4 i x y hx hy
    · rintro ⟨h1, h2⟩
      cases r with
      | nil => simp at h1
      | cons a b =>
        obtain ⟨ka, na⟩ := a
        simp only [List.map_cons, List.cons.injEq] at h1
        refine ⟨_, b, ?_, (ih b).2 ⟨h1.2, fun i x y hx hy => h2 (i + 1) x y hx hy⟩, rfl⟩
        rw [Option.map_eq_some_iff]
        exact ⟨na, h2 0 _ _ rfl rfl, by rw [h1.1]⟩

theorem sanitizeM_none (src : String) (l : List (String × Data)) : (sanitizeM src l : Option (List (String × Node E))) = none ↔
    ∃ d ∈ l, (sanitize src d.2 : Option (Node E)) = none := by
  induction l with
  | nil => simp [sanitizeM]
  | cons d l ih => obtain ⟨k, d⟩ := d; simp [sanitizeM, consOpt_none, ih]

theorem sanitizeD_iff (src : String) (l : List (Key × Data)) : ∀ r : List (String × Node E),
    sanitizeD src l = some r ↔ l.map Prod.fst = r.map (fun e => Key.str e.1) ∧
      ∀ (i : Nat) x y, l[i]? = some x → r[i]? = some y → sanitize src x.2 = some y.2 := by
  induction l with
  | nil => intro r; cases r <;> simp [sanitizeD]
  | cons d l ih =>
    intro r
    obtain ⟨k, d⟩ := d
    cases k with
    | other k =>
      simp only [sanitizeD, false_iff, reduceCtorEq]
      rintro ⟨h, -⟩
      cases r <;> simp at h
    | str k =>
      rw [sanitizeD, consOpt_some]
      constructor
      · rintro ⟨a, b, h1, h2, rfl⟩
        obtain ⟨h3, h4⟩ := (ih b).1 h2
        rw [Option.map_eq_some_iff] at h1
        obtain ⟨n, h1, rfl⟩ := h1
        refine ⟨by simp [h3], ?_⟩
        intro i x y hx hy
        cases i with
        | zero => simp at hx hy; subst hx; subst hy; exact h1
        | succ i => simp at hx hy; exact h4 i x y hx hy
      · rintro ⟨h1, h2⟩
        cases r with
        | nil => simp at h1
        | cons a b =>
          obtain ⟨ka, na⟩ := a
          simp only [List.map_cons, List.cons.injEq, Key.str.injEq] at h1
          refine ⟨_, b, ?_, (ih b).2 ⟨h1.2, fun i x y hx hy => h2 (i + 1) x y hx hy⟩, rfl⟩
          rw [Option.map_eq_some_iff]
          exact ⟨na, h2 0 _ _ rfl rfl, by rw [h1.1]⟩

theorem sanitizeD_none (src : String) (l : List (Key × Data)) : (sanitizeD src l : Option (List (String × Node E))) = none ↔
    (∃ k x, (Key.other k, x) ∈ l) ∨ ∃ d ∈ l, (sanitize src d.2 : Option (Node E)) = none := by
  induction l with
  | nil => simp [sanitizeD]
  | cons d l ih =>
    obtain ⟨k, d⟩ := d
    cases k with
    | other k =>
      simp only [sanitizeD, true_iff]
      exact .inl ⟨k, d, by simp⟩
    | str k =>
      simp only [sanitizeD, consOpt_none, ih, Option.map_eq_none_iff, List.mem_cons, Prod.mk.injEq, reduceCtorEq, false_and, false_or,
        exists_eq_or_imp]
      exact or_left_comm

theorem occurs_cases {d e : Data} : OccursIn d e ↔ d = e ∨ ∃ c, DataChild d c ∧ OccursIn c e := by
  constructor
  · intro h
    cases h with
    | here => exact .inl rfl
    | down _ c _ h1 h2 => exact .inr ⟨c, h1, h2⟩
  · rintro (rfl | ⟨c, h1, h2⟩)
    · exact .here d
    · exact .down d c e h1 h2

/-- C18: reading fails exactly if some map within the data has a key that is no string, or some value has an unsupported
type. -/
theorem sanitize_fails_iff (src : String) (d : Data) : (sanitize src d : Option (Node E)) = none ↔ ∃ e, OccursIn d e ∧ Unreadable e := by
  induction d using data_induction with
  | seq l ih =>
    simp only [sanitize, Option.map_eq_none_iff, sanitizeL_none]
    constructor
    · rintro ⟨d, hd, h⟩
      obtain ⟨e, h1, h2⟩ := (ih d hd).1 h
      exact ⟨e, .down _ d _ (.seq l d hd) h1, h2⟩
    · rintro ⟨e, h1, h2⟩
      rcases occurs_cases.1 h1 with rfl | ⟨c, hc, h⟩
      · simp [Unreadable] at h2
      · cases hc with
        | seq _ _ hm => exact ⟨c, hm, (ih c hm).2 ⟨e, h, h2⟩⟩
  | dict m ih =>
    simp only [sanitize, Option.map_eq_none_iff, sanitizeD_none]
    constructor
    · rintro (⟨k, x, h⟩ | ⟨d, hd, h⟩)
      · exact ⟨_, .here _, .inl ⟨m, k, x, rfl, h⟩⟩
      · obtain ⟨e, h1, h2⟩ := (ih d hd).1 h
        exact ⟨e, .down _ d.2 _ (.dict m d.1 d.2 hd) h1, h2⟩
    · rintro ⟨e, h1, h2⟩
      rcases occurs_cases.1 h1 with rfl | ⟨c, hc, h⟩
      · simp [Unreadable] at h2
        exact .inl h2
      · cases hc with
        | dict _ k _ hm => exact .inr ⟨_, hm, (ih _ hm).2 ⟨e, h, h2⟩⟩
  | smap m ih =>
    simp only [sanitize, Option.map_eq_none_iff, sanitizeM_none]
    constructor
    · rintro ⟨d, hd, h⟩
      obtain ⟨e, h1, h2⟩ := (ih d hd).1 h
      exact ⟨e, .down _ d.2 _ (.smap m d.1 d.2 hd) h1, h2⟩
    · rintro ⟨e, h1, h2⟩
      rcases occurs_cases.1 h1 with rfl | ⟨c, hc, h⟩
      · simp [Unreadable] at h2
      · cases hc with
        | smap _ k _ hm => exact ⟨_, hm, (ih _ hm).2 ⟨e, h, h2⟩⟩
  | conv d ih =>
    by_cases h0 : (∃ l, d = .seq l) ∨ ∃ m, d = .smap m
    · have hs : (sanitize src (.conv d) : Option (Node E)) = sanitize src d := by
        rcases h0 with ⟨l, rfl⟩ | ⟨l, rfl⟩ <;> rfl
      have hun : ¬ Unreadable (.conv d) ∧ ¬ Unreadable d := by
        rcases h0 with ⟨l, rfl⟩ | ⟨l, rfl⟩ <;> simp [Unreadable]
      rw [hs, ih]
      constructor
      · rintro ⟨e, h1, h2⟩
        rcases occurs_cases.1 h1 with rfl | ⟨c, hc, h⟩
        · exact absurd h2 hun.2
        · exact ⟨e, .down _ c _ (.conv _ _ hc) h, h2⟩
      · rintro ⟨e, h1, h2⟩
        rcases occurs_cases.1 h1 with rfl | ⟨c, hc, h⟩
        · exact absurd h2 hun.1
        · cases hc with
          | conv _ _ hc => exact ⟨e, .down _ c _ hc h, h2⟩
    · have hs : (sanitize src (.conv d) : Option (Node E)) = none := by
        cases d <;> first | rfl | simp at h0
      simp only [hs, true_iff]
      simp only [not_or, not_exists] at h0
      exact ⟨_, .here _, .inr (.inr ⟨d, rfl, h0.1, h0.2⟩)⟩
  | other t =>
    simp only [sanitize, true_iff]
    exact ⟨_, .here _, .inr (.inl ⟨t, rfl⟩)⟩
  | _ =>
    simp only [sanitize, reduceCtorEq, false_iff]
    rintro ⟨e, h1, h2⟩
    rcases occurs_cases.1 h1 with rfl | ⟨c, hc, h⟩
    · simp [Unreadable] at h2
    · cases hc

theorem normalizeL_iff (l : List (Node E)) : ∀ r : List Data,
    normalizeL l = some r ↔ l.length = r.length ∧ ∀ (i : Nat) x y, l[i]? = some x → r[i]? = some y → normalize x = some y := by
  induction l with
  | nil => intro r; cases r <;> simp [normalizeL]
  | cons d l ih =>
    intro r
    rw [normalizeL, consOpt_some]
    constructor
    · rintro ⟨a, b, h1, h2, rfl⟩
      obtain ⟨h3, h4⟩ := (ih b).1 h2
      refine ⟨by simp [h3], ?_⟩
      intro i x y hx hy
      cases i with
      | zero => simp at hx hy; subst hx; subst hy; exact h1
      | succ i => simp at hx hy; exact h4 i x y hx hy
    · rintro ⟨h1, h2⟩
      cases r with
      | nil => simp at h1
      | cons a b =>
        exact ⟨a, b, h2 0 d a rfl rfl, (ih b).2 ⟨by simpa using h1, fun i x y hx hy => h2 (i + 1) x y hx hy⟩, rfl⟩

theorem normalizeL_none (l : List (Node E)) : (normalizeL l) = none ↔
    ∃ d ∈ l, (normalize d) = none := by
  induction l with
  | nil => simp [normalizeL]
  | cons d l ih => simp [normalizeL, consOpt_none, ih]

theorem normalizeM_iff (l : List (String × Node E)) : ∀ r : List (String × Data),
    normalizeM l = some r ↔ l.map Prod.fst = r.map Prod.fst ∧
      ∀ (i : Nat) x y, l[i]? = some x → r[i]? = some y → normalize x.2 = some y.2 := by
  induction l with
  | nil => intro r; cases r <;> simp [normalizeM]
  | cons d l ih =>
    intro r
    obtain ⟨k, d⟩ := d
    rw [normalizeM, consOpt_some]
    constructor
    · rintro ⟨a, b, h1, h2, rfl⟩
      obtain ⟨h3, h4⟩ := (ih b).1 h2
      rw [Option.map_eq_some_iff] at h1
      obtain ⟨n, h1, rfl⟩ := h1
      refine ⟨by simp [h3], ?_⟩
      intro i x y hx hy
      cases i with
      | zero => simp at hx hy; subst hx; subst hy; exact h1
      | succ i => simp at hx hy; exact h4 i x y hx hy
    · rintro ⟨h1, h2⟩
      cases r with
      | nil => simp at h1
      | cons a b =>
        obtain ⟨ka, na⟩ := a
        simp only [List.map_cons, List.cons.injEq] at h1
        refine ⟨_, b, ?_, (ih b).2 ⟨h1.2, fun i x y hx hy => h2 (i + 1) x y hx hy⟩, rfl⟩
        rw [Option.map_eq_some_iff]
        exact ⟨na, h2 0 _ _ rfl rfl, by rw [h1.1]⟩

theorem normalizeM_none (l : List (String × Node E)) : (normalizeM l) = none ↔
    ∃ d ∈ l, (normalize d.2) = none := by
  induction l with
  | nil => simp [normalizeM]
  | cons d l ih => obtain ⟨k, d⟩ := d; simp [normalizeM, consOpt_none, ih]


/-- C18: reading data and writing it yields the same data, in JSON form. -/
theorem normalize_sanitize (src : String) (d : Data) : ∀ n : Node E, sanitize src d = some n → ∃ d', normalize n = some d' ∧ JsonOf d d' := by
  have hl : ∀ (l : List Data), (∀ d ∈ l, ∀ n : Node E, sanitize src d = some n → ∃ d', normalize n = some d' ∧ JsonOf d d') →
      ∀ n : Node E, (sanitizeL src l).map (fun l => Node.new (.list l) src) = some n → ∃ d', normalize n = some d' ∧ JsonOf (.seq l) d' := by
    intro l ih n h
    rw [Option.map_eq_some_iff] at h
    obtain ⟨r, hr, rfl⟩ := h
    obtain ⟨h1, h2⟩ := (sanitizeL_iff src l r).1 hr
    rcases hn : normalizeL r with _ | r'
    · obtain ⟨y, hy, h⟩ := (normalizeL_none r).1 hn
      obtain ⟨i, hi⟩ := List.mem_iff_getElem?.1 hy
      have hil : i < l.length := by rw [h1]; exact (List.getElem?_eq_some_iff.1 hi).1
      obtain ⟨d', hd, -⟩ := ih _ (List.getElem_mem hil) y (h2 i _ y (List.getElem?_eq_getElem hil) hi)
      rw [h] at hd; cases hd
    · obtain ⟨h3, h4⟩ := (normalizeL_iff r r').1 hn
      refine ⟨.seq r', by simp [Node.new, normalize, normalizeV, hn], .seq l r' (by rw [h1, h3]) ?_⟩
      intro i x z hx hz
      have hil : i < r.length := by rw [h3]; exact (List.getElem?_eq_some_iff.1 hz).1
      have hy := List.getElem?_eq_getElem hil
      obtain ⟨d', hd, hj⟩ := ih x (List.mem_of_getElem? hx) _ (h2 i x _ hx hy)
      rw [h4 i _ z hy hz] at hd; cases hd
      exact hj
  have hm : ∀ (l : List (String × Data)), (∀ d ∈ l, ∀ n : Node E, sanitize src d.2 = some n → ∃ d', normalize n = some d' ∧ JsonOf d.2 d') →
      ∀ n : Node E, (sanitizeM src l).map (fun l => Node.new (.map l) src) = some n → ∃ d', normalize n = some d' ∧ JsonOf (.smap l) d' := by
    intro l ih n h
    rw [Option.map_eq_some_iff] at h
    obtain ⟨r, hr, rfl⟩ := h
    obtain ⟨h1, h2⟩ := (sanitizeM_iff src l r).1 hr
    have h1l : l.length = r.length := by have := congrArg List.length h1; simpa using this
    rcases hn : normalizeM r with _ | r'
    · obtain ⟨y, hy, h⟩ := (normalizeM_none r).1 hn
      obtain ⟨i, hi⟩ := List.mem_iff_getElem?.1 hy
      have hil : i < l.length := by rw [h1l]; exact (List.getElem?_eq_some_iff.1 hi).1
      obtain ⟨d', hd, -⟩ := ih _ (List.getElem_mem hil) y.2 (h2 i _ y (List.getElem?_eq_getElem hil) hi)
      rw [h] at hd; cases hd
    · obtain ⟨h3, h4⟩ := (normalizeM_iff r r').1 hn
      have h3l : r.length = r'.length := by have := congrArg List.length h3; simpa using this
      refine ⟨.smap r', by simp [Node.new, normalize, normalizeV, hn], .smap l r' (by rw [h1, h3]) ?_⟩
      intro i x z hx hz
      have hil : i < r.length := by rw [h3l]; exact (List.getElem?_eq_some_iff.1 hz).1
      have hy := List.getElem?_eq_getElem hil
      obtain ⟨d', hd, hj⟩ := ih x (List.mem_of_getElem? hx) _ (h2 i x _ hx hy)
      rw [h4 i _ z hy hz] at hd; cases hd
      exact hj
  induction d using data_induction with
  | seq l ih => intro n h; rw [sanitize] at h; exact hl l ih n h
  | smap m ih => intro n h; rw [sanitize] at h; exact hm m ih n h
  | dict l ih =>
    intro n h
    rw [sanitize, Option.map_eq_some_iff] at h
    obtain ⟨r, hr, rfl⟩ := h
    obtain ⟨h1, h2⟩ := (sanitizeD_iff src l r).1 hr
    have h1l : l.length = r.length := by have := congrArg List.length h1; simpa using this
    rcases hn : normalizeM r with _ | r'
    · obtain ⟨y, hy, h⟩ := (normalizeM_none r).1 hn
      obtain ⟨i, hi⟩ := List.mem_iff_getElem?.1 hy
      have hil : i < l.length := by rw [h1l]; exact (List.getElem?_eq_some_iff.1 hi).1
      obtain ⟨d', hd, -⟩ := ih _ (List.getElem_mem hil) y.2 (h2 i _ y (List.getElem?_eq_getElem hil) hi)
      rw [h] at hd; cases hd
    · obtain ⟨h3, h4⟩ := (normalizeM_iff r r').1 hn
      have h3l : r.length = r'.length := by have := congrArg List.length h3; simpa using this
      refine ⟨.smap r', by simp [Node.new, normalize, normalizeV, hn], .dict l r' ?_ ?_⟩
      · rw [h1]
        have := congrArg (List.map Key.str) h3
        rw [List.map_map, List.map_map] at this
        exact this
      intro i x z hx hz
      have hil : i < r.length := by rw [h3l]; exact (List.getElem?_eq_some_iff.1 hz).1
      have hy := List.getElem?_eq_getElem hil
      obtain ⟨d', hd, hj⟩ := ih x (List.mem_of_getElem? hx) _ (h2 i x _ hx hy)
      rw [h4 i _ z hy hz] at hd; cases hd
      exact hj
  | conv d ih =>
    intro n h
    have hs : sanitize src d = some n := by
      cases d <;> first | exact h | (simp [sanitize] at h)
    obtain ⟨d', h1, h2⟩ := ih n hs
    exact ⟨d', h1, .conv _ _ h2⟩
  | other t => intro n h; simp [sanitize] at h
  | _ =>
    intro n h
    simp only [sanitize, Option.some.injEq] at h
    subst h
    exact ⟨_, rfl, by constructor⟩

theorem jsonOf_json {d d' : Data} (hj : Json d) : JsonOf d d' → d = d' := by
  induction hj generalizing d' with
  | seq l _ ih =>
    intro h
    cases h with
    | seq _ l' h1 h2 =>
      congr 1
      apply List.ext_getElem h1
      intro i hi hi'
      exact ih _ (List.getElem_mem hi) (h2 i _ _ (List.getElem?_eq_getElem hi) (List.getElem?_eq_getElem hi'))
  | smap m _ ih =>
    intro h
    cases h with
    | smap _ l' h1 h2 =>
      congr 1
      have hl : m.length = l'.length := by have := congrArg List.length h1; simpa using this
      apply List.ext_getElem hl
      intro i hi hi'
      have he := ih _ (List.getElem_mem hi) (h2 i _ _ (List.getElem?_eq_getElem hi) (List.getElem?_eq_getElem hi'))
      have hk : (m.map Prod.fst)[i]? = (l'.map Prod.fst)[i]? := by rw [h1]
      simp only [List.getElem?_map, List.getElem?_eq_getElem hi, List.getElem?_eq_getElem hi', Option.map_some, Option.some.injEq] at hk
      exact Prod.ext hk he
  | _ => intro h; cases h; rfl

theorem json_readable {d : Data} (hj : Json d) : ¬ ∃ e, OccursIn d e ∧ Unreadable e := by
  induction hj with
  | seq l _ ih =>
    rintro ⟨e, h1, h2⟩
    rcases occurs_cases.1 h1 with rfl | ⟨c, hc, h⟩
    · simp [Unreadable] at h2
    · cases hc with
      | seq _ _ hm => exact ih c hm ⟨e, h, h2⟩
  | smap l _ ih =>
    rintro ⟨e, h1, h2⟩
    rcases occurs_cases.1 h1 with rfl | ⟨c, hc, h⟩
    · simp [Unreadable] at h2
    · cases hc with
      | smap _ k _ hm => exact ih _ hm ⟨e, h, h2⟩
  | _ =>
    rintro ⟨e, h1, h2⟩
    rcases occurs_cases.1 h1 with rfl | ⟨c, hc, h⟩
    · simp [Unreadable] at h2
    · cases hc

/-- C18: JSON data is read without error, and writing what was read yields exactly the same data. -/
theorem json_roundtrip (src : String) (d : Data) (hj : Json d) : ∃ n : Node E, sanitize src d = some n ∧ normalize n = some d := by
  rcases hs : (sanitize src d : Option (Node E)) with _ | n
  · exact absurd ((sanitize_fails_iff src d).1 hs) (json_readable hj)
  · obtain ⟨d', h1, h2⟩ := normalize_sanitize src d n hs
    rw [jsonOf_json hj h2]
    exact ⟨n, rfl, h1⟩

example : Json (.smap [("a", .seq [.num .int64 1, .nil]), ("b", .smap [("c", .str "x")])]) :=
  .smap _ (by
    intro e he
    simp only [List.mem_cons, List.not_mem_nil, or_false] at he
    rcases he with rfl | rfl
    · exact .seq _ (by
        intro d hd
        simp only [List.mem_cons, List.not_mem_nil, or_false] at hd
        rcases hd with rfl | rfl
        · exact .int 1
        · exact .nil)
    · exact .smap _ (by intro e he; simp at he; subst he; exact .str "x"))

/-- what is written is JSON data -/
theorem normalize_json (n : Node E) : ∀ d, normalize n = some d → Json d := by
  refine Node.rec
    (motive_1 := fun v => ∀ d, normalizeV v = some d → Json d)
    (motive_2 := fun n => ∀ d, normalize n = some d → Json d)
    (motive_3 := fun l => ∀ n ∈ l, ∀ d, normalize n = some d → Json d)
    (motive_4 := fun m => ∀ e ∈ m, ∀ d, normalize e.2 = some d → Json d)
    (motive_5 := fun e => ∀ d, normalize e.2 = some d → Json d)
    ?_ ?_ ?_ ?_ ?_ ?_ ?_ ?_ ?_ ?_ ?_ ?_ ?_ ?_ ?_ ?_ n
  case refine_6 =>
    intro l ih d h
    rw [normalizeV, Option.map_eq_some_iff] at h
    obtain ⟨r, h, rfl⟩ := h
    obtain ⟨h1, h2⟩ := (normalizeL_iff l r).1 h
    refine .seq r fun d hd => ?_
    obtain ⟨i, hi⟩ := List.mem_iff_getElem?.1 hd
    have hil : i < l.length := by rw [h1]; exact (List.getElem?_eq_some_iff.1 hi).1
    exact ih _ (List.getElem_mem hil) d (h2 i _ d (List.getElem?_eq_getElem hil) hi)
  case refine_7 =>
    intro l ih d h
    rw [normalizeV, Option.map_eq_some_iff] at h
    obtain ⟨r, h, rfl⟩ := h
    obtain ⟨h1, h2⟩ := (normalizeM_iff l r).1 h
    have h1l : l.length = r.length := by have := congrArg List.length h1; simpa using this
    refine .smap r fun d hd => ?_
    obtain ⟨i, hi⟩ := List.mem_iff_getElem?.1 hd
    have hil : i < l.length := by rw [h1l]; exact (List.getElem?_eq_some_iff.1 hi).1
    exact ih _ (List.getElem_mem hil) d.2 (h2 i _ d (List.getElem?_eq_getElem hil) hi)
  case refine_8 => intro e d h; simp [normalizeV] at h
  case refine_9 => intro n ih d h; rw [normalizeV] at h; exact ih d h
  case refine_11 => intro v s an ih d h; rw [normalize] at h; exact ih d h
  case refine_12 => intro a h; cases h
  case refine_13 =>
    intro x r h1 h2 a h
    rcases List.mem_cons.1 h with rfl | h
    · exact h1
    · exact h2 a h
  case refine_14 => intro a h; cases h
  case refine_15 =>
    intro x r h1 h2 a h
    rcases List.mem_cons.1 h with rfl | h
    · exact h1
    · exact h2 a h
  case refine_16 => intro k n ih; exact ih
  all_goals
    intros
    rename_i h
    simp only [normalizeV, Option.some.injEq] at h
    subst h
    constructor

/-- C18: writing a document fails exactly if there is an (unresolved) expression in it. -/
theorem normalize_fails_iff (n : Node E) (hg : GoMaps n) : normalize n = none ↔ ∃ p x e, locate n p = some x ∧ x.val = .expr e := by
  revert hg
  refine Node.rec
    (motive_1 := fun v => ∀ s an, GoMapsV v → (normalizeV v = none ↔ ∃ p x e, locate (.mk v s an) p = some x ∧ x.val = .expr e))
    (motive_2 := fun n => GoMaps n → (normalize n = none ↔ ∃ p x e, locate n p = some x ∧ x.val = .expr e))
    (motive_3 := fun l => ∀ n ∈ l, GoMaps n → (normalize n = none ↔ ∃ p x e, locate n p = some x ∧ x.val = .expr e))
    (motive_4 := fun m => ∀ e ∈ m, GoMaps e.2 → (normalize e.2 = none ↔ ∃ p x e', locate e.2 p = some x ∧ x.val = .expr e'))
    (motive_5 := fun e => GoMaps e.2 → (normalize e.2 = none ↔ ∃ p x e', locate e.2 p = some x ∧ x.val = .expr e'))
    ?_ ?_ ?_ ?_ ?_ ?_ ?_ ?_ ?_ ?_ ?_ ?_ ?_ ?_ ?_ ?_ n
  case refine_6 =>
    intro l ih s an hg
    simp only [GoMapsV, GoMapsL_iff] at hg
    rw [normalizeV, Option.map_eq_none_iff, normalizeL_none]
    constructor
    · rintro ⟨y, hy, h⟩
      obtain ⟨p, x, e, h1, h2⟩ := (ih y hy (hg y hy)).1 h
      obtain ⟨i, hi⟩ := List.mem_iff_getElem?.1 hy
      exact ⟨.idx i :: p, x, e, by simpa [locate, child, hi] using h1, h2⟩
    · rintro ⟨p, x, e, h1, h2⟩
      cases p with
      | nil => simp [locate] at h1; rw [← h1] at h2; cases h2
      | cons i p =>
        cases i with
        | idx i =>
          simp only [locate, child, Node.val_mk] at h1
          rcases hi : l[i]? with _ | y
          · simp [hi] at h1
          · simp only [hi] at h1
            have hy := List.mem_of_getElem? hi
            exact ⟨y, hy, (ih y hy (hg y hy)).2 ⟨p, x, e, h1, h2⟩⟩
        | _ => simp [locate, child] at h1
  case refine_7 =>
    intro l ih s an hg
    simp only [GoMapsV, GoMapsM_iff] at hg
    rw [normalizeV, Option.map_eq_none_iff, normalizeM_none]
    constructor
    · rintro ⟨y, hy, h⟩
      obtain ⟨p, x, e, h1, h2⟩ := (ih y hy (hg.2 y hy)).1 h
      exact ⟨.key y.1 :: p, x, e, by simpa [locate, child, mget_of_mem hg.1 hy] using h1, h2⟩
    · rintro ⟨p, x, e, h1, h2⟩
      cases p with
      | nil => simp [locate] at h1; rw [← h1] at h2; cases h2
      | cons i p =>
        cases i with
        | key i =>
          simp only [locate, child, Node.val_mk] at h1
          rcases hi : mget l i with _ | y
          · simp [hi] at h1
          · simp only [hi] at h1
            have hy := mget_some_mem hi
            exact ⟨_, hy, (ih _ hy (hg.2 _ hy)).2 ⟨p, x, e, h1, h2⟩⟩
        | _ => simp [locate, child] at h1
  case refine_8 =>
    intro e s an hg
    simp only [normalizeV, true_iff]
    exact ⟨[], _, e, rfl, rfl⟩
  case refine_9 =>
    intro n ih s an hg
    rw [normalizeV, ih (by simpa [GoMapsV] using hg)]
    constructor
    · rintro ⟨p, x, e, h1, h2⟩
      exact ⟨.body :: p, x, e, by simpa [locate, child] using h1, h2⟩
    · rintro ⟨p, x, e, h1, h2⟩
      cases p with
      | nil => simp [locate] at h1; rw [← h1] at h2; cases h2
      | cons i p =>
        cases i with
        | body => exact ⟨p, x, e, by simpa [locate, child] using h1, h2⟩
        | _ => simp [locate, child] at h1
  case refine_11 => intro v s an ih hg; rw [normalize]; exact ih s an (by simpa [GoMaps] using hg)
  case refine_12 => intro a h; cases h
  case refine_13 =>
    intro x r h1 h2 a h
    rcases List.mem_cons.1 h with rfl | h
    · exact h1
    · exact h2 a h
  case refine_14 => intro a h; cases h
  case refine_15 =>
    intro x r h1 h2 a h
    rcases List.mem_cons.1 h with rfl | h
    · exact h1
    · exact h2 a h
  case refine_16 => intro k n ih; exact ih
  all_goals
    intros
    simp only [normalizeV, reduceCtorEq, false_iff]
    rintro ⟨p, x, e, h1, h2⟩
    cases p with
    | nil => simp [locate] at h1; rw [← h1] at h2; cases h2
    | cons i p => simp [locate, child] at h1


theorem sameContent_leaf {v : Val E} {s s' : String} {a a' : Ann} (h0 : SameKind v v) (h : ∀ i, child v i = none) :
    SameContent (.mk v s a) (.mk v s' a') := by
  refine agree_step.2 ⟨h0, fun i => ?_⟩
  simp only [Node.val_mk, h i, Both]

/-- C18: writing a document that consists of data only (no expressions, templates, lambdas) and reading it again yields the same
document, without annotations. -/
theorem sanitize_normalize (src : String) (n : Node E) : OnlyData n → NoNaN n → GoMaps n →
    ∃ d n', normalize n = some d ∧ sanitize src d = some n' ∧ SameContent n n' ∧ n'.src = src ∧ n'.ann = {} := by
  refine Node.rec
    (motive_1 := fun v => ∀ s an, OnlyData (.mk v s an) → NoNaN (.mk v s an) → GoMapsV v →
      ∃ d n', normalizeV v = some d ∧ sanitize src d = some n' ∧ SameContent (.mk v s an) n' ∧ n'.src = src ∧ n'.ann = {})
    (motive_2 := fun n => OnlyData n → NoNaN n → GoMaps n →
      ∃ d n', normalize n = some d ∧ sanitize src d = some n' ∧ SameContent n n' ∧ n'.src = src ∧ n'.ann = {})
    (motive_3 := fun l => ∀ n ∈ l, OnlyData n → NoNaN n → GoMaps n →
      ∃ d n', normalize n = some d ∧ sanitize src d = some n' ∧ SameContent n n' ∧ n'.src = src ∧ n'.ann = {})
    (motive_4 := fun m => ∀ e ∈ m, OnlyData e.2 → NoNaN e.2 → GoMaps e.2 →
      ∃ d n', normalize e.2 = some d ∧ sanitize src d = some n' ∧ SameContent e.2 n' ∧ n'.src = src ∧ n'.ann = {})
    (motive_5 := fun e => OnlyData e.2 → NoNaN e.2 → GoMaps e.2 →
      ∃ d n', normalize e.2 = some d ∧ sanitize src d = some n' ∧ SameContent e.2 n' ∧ n'.src = src ∧ n'.ann = {})
    ?_ ?_ ?_ ?_ ?_ ?_ ?_ ?_ ?_ ?_ ?_ ?_ ?_ ?_ ?_ ?_ n
  case refine_4 =>
    intro b s an ho hn hg
    refine ⟨_, _, rfl, rfl, sameContent_leaf ?_ (fun i => by cases i <;> rfl), rfl, rfl⟩
    have := hn [] _ b rfl rfl
    simp [SameKind, floatEq, this]
  case refine_6 =>
    intro l ih s an ho hn hg
    simp only [GoMapsV, GoMapsL_iff] at hg
    have hi : ∀ (i : Nat) x, l[i]? = some x →
        ∃ d n', normalize x = some d ∧ sanitize src d = some n' ∧ SameContent x n' ∧ n'.src = src ∧ n'.ann = {} := by
      intro i x hx
      have hxm := List.mem_of_getElem? hx
      refine ih x hxm (fun p y hy => ho (.idx i :: p) y ?_) (fun p y b hy => hn (.idx i :: p) y b ?_) (hg x hxm)
      · simpa [locate, child, hx] using hy
      · simpa [locate, child, hx] using hy
    have hN : ∃ r, normalizeL l = some r := by
      rcases h : normalizeL l with _ | r
      · obtain ⟨y, hy, h⟩ := (normalizeL_none l).1 h
        obtain ⟨i, hyi⟩ := List.mem_iff_getElem?.1 hy
        obtain ⟨d, n', h1, -⟩ := hi i y hyi
        rw [h] at h1; cases h1
      · exact ⟨r, rfl⟩
    obtain ⟨r, hr⟩ := hN
    obtain ⟨h1, h2⟩ := (normalizeL_iff l r).1 hr
    have hS : ∃ t : List (Node E), sanitizeL src r = some t := by
      rcases h : (sanitizeL src r : Option (List (Node E))) with _ | t
      · obtain ⟨y, hy, h⟩ := (sanitizeL_none src r).1 h
        obtain ⟨i, hyi⟩ := List.mem_iff_getElem?.1 hy
        have hil : i < l.length := by rw [h1]; exact (List.getElem?_eq_some_iff.1 hyi).1
        obtain ⟨d, n', q1, q2, -⟩ := hi i _ (List.getElem?_eq_getElem hil)
        rw [h2 i _ y (List.getElem?_eq_getElem hil) hyi] at q1; cases q1
        rw [h] at q2; cases q2
      · exact ⟨t, rfl⟩
    obtain ⟨t, ht⟩ := hS
    obtain ⟨h3, h4⟩ := (sanitizeL_iff src r t).1 ht
    refine ⟨.seq r, Node.new (.list t) src, by simp [normalizeV, hr], by simp [sanitize, ht], ?_, rfl, rfl⟩
    refine agree_step.2 ⟨trivial, fun i => ?_⟩
    cases i with
    | idx i =>
      simp only [Node.val_mk, Node.val_new, child]
      rcases hx : l[i]? with _ | x
      · have : t[i]? = none := by
          rw [List.getElem?_eq_none_iff] at hx ⊢; omega
        simp [this, Both]
      · have hil : i < l.length := (List.getElem?_eq_some_iff.1 hx).1
        have hir : i < r.length := by omega
        have hit : i < t.length := by omega
        rw [List.getElem?_eq_getElem hit]
        obtain ⟨d, n', q1, q2, q3, -⟩ := hi i x hx
        rw [h2 i x _ hx (List.getElem?_eq_getElem hir)] at q1
        cases q1
        rw [h4 i _ _ (List.getElem?_eq_getElem hir) (List.getElem?_eq_getElem hit)] at q2
        cases q2
        exact q3
    | _ => exact trivial
  case refine_7 =>
    intro l ih s an ho hn hg
    simp only [GoMapsV, GoMapsM_iff] at hg
    have hi : ∀ (i : Nat) x, l[i]? = some x →
        ∃ d n', normalize x.2 = some d ∧ sanitize src d = some n' ∧ SameContent x.2 n' ∧ n'.src = src ∧ n'.ann = {} := by
      intro i x hx
      have hxm := List.mem_of_getElem? hx
      have hxg := mget_of_mem hg.1 hxm
      refine ih x hxm (fun p y hy => ho (.key x.1 :: p) y ?_) (fun p y b hy => hn (.key x.1 :: p) y b ?_) (hg.2 x hxm)
      · simpa [locate, child, hxg] using hy
      · simpa [locate, child, hxg] using hy
    have hN : ∃ r, normalizeM l = some r := by
      rcases h : normalizeM l with _ | r
      · obtain ⟨y, hy, h⟩ := (normalizeM_none l).1 h
        obtain ⟨i, hyi⟩ := List.mem_iff_getElem?.1 hy
        obtain ⟨d, n', h1, -⟩ := hi i y hyi
        rw [h] at h1; cases h1
      · exact ⟨r, rfl⟩
    obtain ⟨r, hr⟩ := hN
    obtain ⟨h1, h2⟩ := (normalizeM_iff l r).1 hr
    have h1l : l.length = r.length := by have := congrArg List.length h1; simpa using this
    have hS : ∃ t : List (String × Node E), sanitizeM src r = some t := by
      rcases h : (sanitizeM src r : Option (List (String × Node E))) with _ | t
      · obtain ⟨y, hy, h⟩ := (sanitizeM_none src r).1 h
        obtain ⟨i, hyi⟩ := List.mem_iff_getElem?.1 hy
        have hil : i < l.length := by rw [h1l]; exact (List.getElem?_eq_some_iff.1 hyi).1
        obtain ⟨d, n', q1, q2, -⟩ := hi i _ (List.getElem?_eq_getElem hil)
        rw [h2 i _ y (List.getElem?_eq_getElem hil) hyi] at q1; cases q1
        rw [h] at q2; cases q2
      · exact ⟨t, rfl⟩
    obtain ⟨t, ht⟩ := hS
    obtain ⟨h3, h4⟩ := (sanitizeM_iff src r t).1 ht
    have h3l : r.length = t.length := by have := congrArg List.length h3; simpa using this
    have hkeys : mkeys l = mkeys t := by unfold mkeys; rw [h1, h3]
    have htok : MapOK t := by
      have := hg.1
      unfold MapOK at this ⊢
      rw [← hkeys]; exact this
    refine ⟨.smap r, Node.new (.map t) src, by simp [normalizeV, hr], by simp [sanitize, ht], ?_, rfl, rfl⟩
    refine agree_step.2 ⟨trivial, fun k => ?_⟩
    cases k with
    | key k =>
      simp only [Node.val_mk, Node.val_new, child]
      rcases hx : mget l k with _ | x
      · have : mget t k = none := by
          rw [mget_none_iff] at hx ⊢; rw [← hkeys]; exact hx
        simp [this, Both]
      · obtain ⟨i, hxi⟩ := List.mem_iff_getElem?.1 (mget_some_mem hx)
        have hil : i < l.length := (List.getElem?_eq_some_iff.1 hxi).1
        have hir : i < r.length := by omega
        have hit : i < t.length := by omega
        have hke : (mkeys l)[i]? = (mkeys t)[i]? := by rw [hkeys]
        simp only [mkeys, List.getElem?_map, hxi, List.getElem?_eq_getElem hit, Option.map_some, Option.some.injEq] at hke
        have htm : (k, t[i].2) ∈ t := by
          have := List.getElem_mem hit
          rw [hke]; exact this
        rw [mget_of_mem htok htm]
        obtain ⟨d, n', q1, q2, q3, -⟩ := hi i _ hxi
        rw [h2 i _ _ hxi (List.getElem?_eq_getElem hir)] at q1
        cases q1
        rw [h4 i _ _ (List.getElem?_eq_getElem hir) (List.getElem?_eq_getElem hit)] at q2
        cases q2
        exact q3
    | _ => exact trivial
  case refine_8 => intro e s an ho; exact absurd rfl ((ho [] _ rfl).1 e)
  case refine_9 => intro n ih s an ho; exact absurd rfl ((ho [] _ rfl).2.1 n)
  case refine_10 => intro e s an ho; exact absurd rfl ((ho [] _ rfl).2.2 e)
  case refine_11 => intro v s an ih ho hn hg; rw [normalize]; exact ih s an ho hn (by simpa [GoMaps] using hg)
  case refine_12 => intro a h; cases h
  case refine_13 =>
    intro x r h1 h2 a h
    rcases List.mem_cons.1 h with rfl | h
    · exact h1
    · exact h2 a h
  case refine_14 => intro a h; cases h
  case refine_15 =>
    intro x r h1 h2 a h
    rcases List.mem_cons.1 h with rfl | h
    · exact h1
    · exact h2 a h
  case refine_16 => intro k n ih; exact ih
  all_goals
    intros
    exact ⟨_, _, rfl, rfl, sameContent_leaf (by simp [SameKind]) (fun i => by cases i <;> rfl), rfl, rfl⟩

/-- C18 (defect): a timestamp is read as a text that does not contain the time of day (and not even the century). -/
theorem timestamp_lost (src : String) (y m d r r' c : Nat) :
    (sanitize src (.time ⟨y, m, d, r⟩) : Option (Node E)) = sanitize src (.time ⟨y + 100 * c, m, d, r'⟩) := by
  simp [sanitize, timeText]

/-- the date 2001-12-14 -/
example : (sanitize "f" (.time ⟨2001, 12, 14, 0⟩) : Option (Node E)) = some (Node.new (.str "14129-12-08T120:01:146Z") "f") := rfl

end Spiff
