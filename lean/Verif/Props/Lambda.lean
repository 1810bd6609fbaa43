import Verif.Spec.Lambda
import Verif.Lemmas.Maps
import Verif.Props.MapFns
/-
C40: calls of lambda values.
-/
namespace Spiff
open Spec
variable {E B : Type}

theorem argName_iff (params : List (Param E)) (k x : String) : argName params k = some x ↔ Names params k x := by
  unfold argName Names
  cases hp : parseInt32 k with
  | none => simp [eq_comm]
  | some i =>
    simp only [reduceCtorEq, false_and, Option.some.injEq, false_or]
    split
    · rename_i h
      simp only [reduceCtorEq, false_iff]
      rintro ⟨j, p, h1, _⟩
      omega
    · rename_i h
      constructor
      · intro hm
        obtain ⟨p, h1, h2⟩ := Option.map_eq_some_iff.1 hm
        exact ⟨(i - 1).toNat, p, by omega, h1, h2.symm⟩
      · rintro ⟨j, p, h1, h2, rfl⟩
        have : (i - 1).toNat = j := by omega
        rw [this, h2]; rfl

theorem names_unique {params : List (Param E)} {k x y : String} (h : Names params k x) (h' : Names params k y) : x = y := by
  have h1 := (argName_iff params k x).2 h
  have h2 := (argName_iff params k y).2 h'
  rw [h1] at h2; simpa using h2

/-- named arguments: the mapping from parameter names to values -/
theorem namedArgs_get {params : List (Param E)} : ∀ {nargs acc named : List (String × Node E)}, namedArgs params nargs acc = some named →
    ∀ x n, mget named x = some n ↔ mget acc x = some n ∨ NamedBy params nargs x n := by
  intro nargs
  induction nargs with
  | nil => intro acc named h x n; simp only [namedArgs, Option.some.injEq] at h; subst h; simp [NamedBy]
  | cons a r ih =>
    obtain ⟨k, v⟩ := a
    intro acc named h x n
    simp only [namedArgs] at h
    split at h
    · cases h
    · rename_i m hm
      split at h
      · cases h
      · rename_i hacc
        have hacc' : mget acc m = none := by cases ha : mget acc m with | none => rfl | some => rw [ha] at hacc; simp at hacc
        rw [ih h x n, mget_mset]
        have hk := (argName_iff params k m).1 hm
        constructor
        · rintro (h1 | ⟨k', h1, h2⟩)
          · split at h1
            · rename_i hx; subst hx; cases h1; exact .inr ⟨k, List.mem_cons_self .., hk⟩
            · exact .inl h1
          · exact .inr ⟨k', List.mem_cons_of_mem _ h1, h2⟩
        · rintro (h1 | ⟨k', h1, h2⟩)
          · left
            rw [if_neg]
            · exact h1
            · intro hx; rw [← hx, h1] at hacc'; cases hacc'
          · rcases List.mem_cons.1 h1 with h1 | h1
            · cases h1
              left
              rw [if_pos (names_unique h2 hk)]
            · exact .inr ⟨k', h1, h2⟩

theorem namedArgs_isSome {params : List (Param E)} : ∀ {nargs acc : List (String × Node E)}, (∃ named, namedArgs params nargs acc = some named) ↔
    (∀ a ∈ nargs, ∃ x, Names params a.1 x ∧ mget acc x = none) ∧ nargs.Pairwise (fun a b => ∀ x, Names params a.1 x → ¬ Names params b.1 x) := by
  intro nargs
  induction nargs with
  | nil => intro acc; simp [namedArgs]
  | cons a r ih =>
    obtain ⟨k, v⟩ := a
    intro acc
    simp only [namedArgs, List.pairwise_cons, List.mem_cons, forall_eq_or_imp]
    cases hm : argName params k with
    | none =>
      simp only [reduceCtorEq, exists_const, false_iff]
      rintro ⟨⟨⟨x, hx, _⟩, _⟩, _⟩
      rw [(argName_iff params k x).2 hx] at hm; cases hm
    | some m =>
      have hk := (argName_iff params k m).1 hm
      simp only
      cases ha : mget acc m with
      | some w =>
        simp only [Option.isSome_some, if_true, reduceCtorEq, exists_const, false_iff]
        rintro ⟨⟨⟨x, hx, hx'⟩, _⟩, _⟩
        rw [← names_unique hk hx, ha] at hx'; cases hx'
      | none =>
        simp only [Option.isSome_none, Bool.false_eq_true, if_false]
        rw [ih]
        constructor
        · rintro ⟨h1, h2⟩
          refine ⟨⟨⟨m, hk, ha⟩, fun b hb => ?_⟩, fun b hb x hx hx' => ?_, h2⟩
          · obtain ⟨x, hx, hx'⟩ := h1 b hb
            rw [mget_mset] at hx'
            split at hx'
            · cases hx'
            · exact ⟨x, hx, hx'⟩
          · obtain ⟨y, hy, hy'⟩ := h1 b hb
            rw [mget_mset, ← names_unique hx' hy, names_unique hx hk, if_pos rfl] at hy'
            cases hy'
        · rintro ⟨⟨_, h1⟩, h2, h3⟩
          refine ⟨fun b hb => ?_, h3⟩
          obtain ⟨x, hx, hx'⟩ := h1 b hb
          refine ⟨x, hx, ?_⟩
          rw [mget_mset, if_neg, hx']
          rintro rfl
          exact h2 b hb _ hk hx

/-! ### the steps -/

theorem bindArgs_other {src : String} : ∀ (ps : List (Param E)) (vs : List (Val E)) (inp : List (String × Node E)) (x : String),
    (∀ (i : Nat) (p : Param E), ps[i]? = some p → p.name = x → vs.length ≤ i) → mget (bindArgs src ps vs inp) x = mget inp x := by
  intro ps
  induction ps with
  | nil => intro vs inp x _; simp [bindArgs]
  | cons p r ih =>
    intro vs inp x h
    cases vs with
    | nil => simp [bindArgs]
    | cons v vs =>
      simp only [bindArgs]
      rw [ih, mget_mset, if_neg]
      · intro hx
        have := h 0 p rfl hx.symm
        simp at this
      · intro i q hq hx
        have := h (i + 1) q (by simpa using hq) hx
        simp at this; exact this

theorem nodup_head {p : Param E} {r : List (Param E)} (hn : ((p :: r).map (·.name)).Nodup) : ∀ (i : Nat) (q : Param E), r[i]? = some q → q.name ≠ p.name := by
  intro i q hq he
  simp only [List.map_cons, List.nodup_cons] at hn
  exact hn.1 (he ▸ List.mem_map_of_mem (List.mem_of_getElem? hq))

theorem bindArgs_at {src : String} : ∀ (ps : List (Param E)) (vs : List (Val E)) (inp : List (String × Node E)), (ps.map (·.name)).Nodup →
    ∀ (i : Nat) (p : Param E) (v : Val E), ps[i]? = some p → vs[i]? = some v →
    mget (bindArgs src ps vs inp) p.name = some (Node.new v (dynSource src)) := by
  intro ps
  induction ps with
  | nil => intro vs inp _ i p v h; simp at h
  | cons p r ih =>
    intro vs inp hn i q v hq hv
    cases vs with
    | nil => simp at hv
    | cons w vs =>
      simp only [bindArgs]
      have hn' : (r.map (·.name)).Nodup := by simp only [List.map_cons, List.nodup_cons] at hn; exact hn.2
      cases i with
      | zero =>
        simp only [List.getElem?_cons_zero, Option.some.injEq] at hq hv
        subst hq; subst hv
        rw [bindArgs_other, mget_mset, if_pos rfl]
        intro i q' hq' hx
        exact absurd hx (nodup_head hn i q' hq')
      | succ i =>
        exact ih vs _ hn' i q v (by simpa using hq) (by simpa using hv)

/-- the value of a parameter not given by position -/
inductive FillVal (varargs : Bool) (named : List (String × Node E)) (src : String) (last : Prop) (p : Param E) : Node E → Prop
  | named {n} : mget named p.name = some n → FillVal varargs named src last p n
  | default {d} : mget named p.name = none → p.default = some d → FillVal varargs named src last p (Node.new d (dynSource src))
  | empty : mget named p.name = none → p.default = none → varargs = true → last →
      FillVal varargs named src last p (Node.new (.list []) (dynSource src))

theorem fill_get {varargs : Bool} {named : List (String × Node E)} {src : String} : ∀ (ps : List (Param E)) (inp inp' : List (String × Node E)),
    (ps.map (·.name)).Nodup → fillParams varargs named src ps inp = some inp' →
    (∀ (i : Nat) (p : Param E), ps[i]? = some p → ∃ n, mget inp' p.name = some n ∧ FillVal varargs named src (i + 1 = ps.length) p n) ∧
    (∀ x, (∀ (i : Nat) (p : Param E), ps[i]? = some p → p.name ≠ x) → mget inp' x = mget inp x) := by
  intro ps
  induction ps with
  | nil => intro inp inp' _ h; simp only [fillParams, Option.some.injEq] at h; subst h; simp
  | cons p r ih =>
    intro inp inp' hn h
    have hn' : (r.map (·.name)).Nodup := by simp only [List.map_cons, List.nodup_cons] at hn; exact hn.2
    have key : ∀ n, fillParams varargs named src r (mset inp p.name n) = some inp' → FillVal varargs named src (r = []) p n →
        (∀ (i : Nat) (q : Param E), (p :: r)[i]? = some q → ∃ n, mget inp' q.name = some n ∧ FillVal varargs named src (i + 1 = (p :: r).length) q n) ∧
        (∀ x, (∀ (i : Nat) (q : Param E), (p :: r)[i]? = some q → q.name ≠ x) → mget inp' x = mget inp x) := by
      intro n hf hv
      obtain ⟨h1, h2⟩ := ih _ _ hn' hf
      refine ⟨fun i q hq => ?_, fun x hx => ?_⟩
      · cases i with
        | zero =>
          simp only [List.getElem?_cons_zero, Option.some.injEq] at hq
          subst hq
          refine ⟨n, ?_, ?_⟩
          · rw [h2 p.name (nodup_head hn), mget_mset, if_pos rfl]
          · cases hv with
            | named h => exact .named h
            | default h h' => exact .default h h'
            | empty h h' h'' h3 => exact .empty h h' h'' (by simp [h3])
        | succ i =>
          obtain ⟨n, q1, q2⟩ := h1 i q (by simpa using hq)
          refine ⟨n, q1, ?_⟩
          have : (i + 1 + 1 = (p :: r).length) = (i + 1 = r.length) := by simp
          rw [this]; exact q2
      · rw [h2 x (fun i q hq => hx (i + 1) q (by simpa using hq)), mget_mset, if_neg (fun e => hx 0 p rfl e.symm)]
    simp only [fillParams] at h
    split at h
    · rename_i v hv; exact key _ h (.named hv)
    · rename_i hv
      split at h
      · rename_i d hd; exact key _ h (.default hv hd)
      · rename_i hd
        split at h
        · rename_i hc; exact key _ h (.empty hv hd hc.1 hc.2)
        · cases h

theorem fill_isSome {varargs : Bool} {named : List (String × Node E)} {src : String} : ∀ (ps : List (Param E)) (inp : List (String × Node E)),
    (∃ inp', fillParams varargs named src ps inp = some inp') ↔
    ∀ (i : Nat) (p : Param E), ps[i]? = some p → (mget named p.name).isSome = true ∨ p.default.isSome = true ∨ (varargs = true ∧ i + 1 = ps.length) := by
  intro ps
  induction ps with
  | nil => intro inp; simp [fillParams]
  | cons p r ih =>
    intro inp
    have step : (∀ (i : Nat) (q : Param E), (p :: r)[i]? = some q → (mget named q.name).isSome = true ∨ q.default.isSome = true ∨ (varargs = true ∧ i + 1 = (p :: r).length)) ↔
        ((mget named p.name).isSome = true ∨ p.default.isSome = true ∨ (varargs = true ∧ r = [])) ∧
        (∀ (i : Nat) (q : Param E), r[i]? = some q → (mget named q.name).isSome = true ∨ q.default.isSome = true ∨ (varargs = true ∧ i + 1 = r.length)) := by
      constructor
      · intro h
        refine ⟨?_, fun i q hq => ?_⟩
        · have := h 0 p rfl
          simpa using this
        · have := h (i + 1) q (by simpa using hq)
          simpa using this
      · rintro ⟨h1, h2⟩ i q hq
        cases i with
        | zero => simp only [List.getElem?_cons_zero, Option.some.injEq] at hq; subst hq; simpa using h1
        | succ i => have := h2 i q (by simpa using hq); simpa using this
    rw [step]
    simp only [fillParams]
    cases hv : mget named p.name with
    | some v => simp only [ih, Option.isSome_some, true_or, true_and]
    | none =>
      cases hd : p.default with
      | some d => simp only [ih, Option.isSome_none, Option.isSome_some, Bool.false_eq_true, true_or, false_or, true_and]
      | none =>
        simp only [Option.isSome_none, Bool.false_eq_true, false_or]
        by_cases hc : varargs = true ∧ r = []
        · have := hc.2; subst this; simp [hc.1, fillParams]
        · simp only [hc, if_false, reduceCtorEq, exists_const, false_and]

theorem packArgs_length (L : Lam E B) (src : String) (args : List (Val E)) (i : Nat) (hi : i < L.params.length) :
    i < (packArgs L src args).length ↔ i < args.length := by
  unfold packArgs
  split
  · rename_i h; simp only [List.length_append, List.length_take, List.length_cons, List.length_nil]; omega
  · rfl

theorem packArgs_count (L : Lam E B) (src : String) (args : List (Val E)) :
    (packArgs L src args).length ≤ L.params.length ↔ args.length ≤ L.params.length ∨ (L.varargs = true ∧ L.params ≠ []) := by
  unfold packArgs
  split
  · rename_i h
    have : L.params ≠ [] ↔ L.params.length ≠ 0 := by simp
    rw [this]
    simp only [List.length_append, List.length_take, List.length_cons, List.length_nil, h.1, true_and]
    omega
  · rename_i h
    constructor
    · exact .inl
    · rintro (h1 | ⟨h1, h2⟩)
      · exact h1
      · have := List.length_pos_of_ne_nil h2
        have : ¬ (L.params.length - 1 < args.length) := fun h3 => h ⟨h1, h3⟩
        omega

theorem packArgs_get {L : Lam E B} {src : String} {nargs : List (String × Node E)} {args : List (Val E)} {i : Nat} {p : Param E} {v : Val E}
    (hp : L.params[i]? = some p) (h : (packArgs L src args)[i]? = some v) : Given L src nargs args i p (Node.new v (dynSource src)) := by
  have hi : i < L.params.length := (List.getElem?_eq_some_iff.1 hp).1
  unfold packArgs at h
  split at h
  · rename_i hc
    have ht : (args.take (L.params.length - 1)).length = L.params.length - 1 := by rw [List.length_take]; omega
    by_cases hl : i + 1 = L.params.length
    · rw [List.getElem?_append_right (by omega), ht] at h
      have h0 : i - (L.params.length - 1) = 0 := by omega
      rw [h0] at h
      simp only [List.getElem?_cons_zero, Option.some.injEq] at h
      rw [← h]
      have : L.params.length - 1 = i := by omega
      rw [this] at hc ⊢
      exact .surplus hc.1 hl hc.2
    · rw [List.getElem?_append_left (by omega), List.getElem?_take] at h
      split at h
      · exact .positional (fun h => hl h.2) h
      · cases h
  · rename_i hc
    refine .positional (fun hv => ?_) h
    have : ¬ (L.params.length - 1 < args.length) := fun h3 => hc ⟨hv.1, h3⟩
    have := (List.getElem?_eq_some_iff.1 h).1
    omega

theorem paramIndex_iff {params : List (Param E)} (hn : (params.map (·.name)).Nodup) {i : Nat} {p : Param E} (hp : params[i]? = some p) :
    paramIndex params p.name = some i := by
  unfold paramIndex
  rw [List.findIdx?_eq_some_iff_getElem]
  obtain ⟨hi, hg⟩ := List.getElem?_eq_some_iff.1 hp
  refine ⟨hi, by simp [hg], fun j hj => ?_⟩
  simp only [decide_eq_true_eq]
  intro he
  have h1 : (params.map (·.name))[j]'(by simp; omega) = (params.map (·.name))[i]'(by simpa using hi) := by simp [he, hg]
  have := (List.getElem_inj hn).1 h1
  omega

theorem paramIndex_some {params : List (Param E)} {x : String} {i : Nat} (h : paramIndex params x = some i) :
    ∃ p, params[i]? = some p ∧ p.name = x := by
  unfold paramIndex at h
  rw [List.findIdx?_eq_some_iff_getElem] at h
  obtain ⟨hi, h, _⟩ := h
  exact ⟨params[i], List.getElem?_eq_getElem hi, by simpa using h⟩

theorem namedArgs_ok {params : List (Param E)} : ∀ {nargs acc named : List (String × Node E)}, namedArgs params nargs acc = some named →
    MapOK acc → MapOK named := by
  intro nargs
  induction nargs with
  | nil => intro acc named h hm; simp only [namedArgs, Option.some.injEq] at h; subst h; exact hm
  | cons a r ih =>
    obtain ⟨k, v⟩ := a
    intro acc named h hm
    simp only [namedArgs] at h
    split at h
    · cases h
    · split at h
      · cases h
      · exact ih h (MapOK_mset hm _ _)

/-- acceptance of the named arguments -/
theorem namedOk_all {L : Lam E B} (hd : Distinct L) {nargs named : List (String × Node E)} (hnm : namedArgs L.params nargs [] = some named)
    (src : String) (args : List (Val E)) : named.all (namedOk L (packArgs L src args).length) = true ↔
    ∀ a ∈ nargs, ∃ (i : Nat) (p : Param E), L.params[i]? = some p ∧ Names L.params a.1 p.name ∧ args.length ≤ i ∧
      (L.varargs = true → i + 1 = L.params.length → ∃ l, a.2.val = .list l) := by
  rw [List.all_eq_true]
  have one : ∀ x n, namedOk L (packArgs L src args).length (x, n) = true ↔
      ∃ (i : Nat) (p : Param E), L.params[i]? = some p ∧ x = p.name ∧ args.length ≤ i ∧ (L.varargs = true → i + 1 = L.params.length → ∃ l, n.val = .list l) := by
    intro x n
    unfold namedOk
    cases hx : paramIndex L.params x with
    | none =>
      simp only [Bool.false_eq_true, false_iff]
      rintro ⟨i, p, h1, rfl, _⟩
      rw [paramIndex_iff hd h1] at hx; cases hx
    | some i =>
      obtain ⟨p, h1, h2⟩ := paramIndex_some hx
      have hi : i < L.params.length := (List.getElem?_eq_some_iff.1 h1).1
      have hl := packArgs_length L src args i hi
      have hlist : isListVal n.val = true ↔ ∃ l, n.val = .list l := by
        cases n.val <;> simp [isListVal]
      have hu : ∀ (j : Nat) (q : Param E), L.params[j]? = some q → x = q.name → j = i := by
        intro j q hq he
        have := paramIndex_iff hd hq
        rw [← he, hx] at this
        simpa using this.symm
      simp only [Bool.and_eq_true, Bool.not_eq_true', decide_eq_false_iff_not, hl]
      constructor
      · rintro ⟨h3, h4⟩
        refine ⟨i, p, h1, h2.symm, by omega, fun hv hlast => ?_⟩
        rw [← hlist]
        have h5 : i = L.params.length - 1 := by omega
        cases hm : isListVal n.val with
        | true => rfl
        | false => rw [hv, hm, decide_eq_true h5] at h4; simp at h4
      · rintro ⟨j, q, h3, h4, h5, h6⟩
        have := hu j q h3 h4
        subst this
        refine ⟨by omega, ?_⟩
        by_cases hv : L.varargs = true
        · by_cases hlast : j + 1 = L.params.length
          · have := hlist.2 (h6 hv hlast); simp only [this, Bool.not_true, Bool.and_false]
          · have : ¬ j = L.params.length - 1 := by omega
            simp only [this, decide_false, Bool.and_false, Bool.false_and]
        · simp only [Bool.not_eq_true] at hv; simp only [hv, Bool.false_and]
  have hok := namedArgs_ok hnm (by simp [MapOK, mkeys])
  constructor
  · rintro h ⟨k, n⟩ ha
    obtain ⟨x, hx, _⟩ := (namedArgs_isSome.1 ⟨named, hnm⟩).1 _ ha
    have := (namedArgs_get hnm x n).2 (.inr ⟨k, ha, hx⟩)
    obtain ⟨i, p, h1, rfl, h3, h4⟩ := (one x n).1 (h _ (mget_some_mem this))
    exact ⟨i, p, h1, hx, h3, h4⟩
  · rintro h ⟨x, n⟩ ha
    rw [one]
    rcases (namedArgs_get hnm x n).1 (mget_of_mem hok ha) with h0 | ⟨k, h1, h2⟩
    · simp [mget] at h0
    · obtain ⟨i, p, q1, q2, q3, q4⟩ := h _ h1
      exact ⟨i, p, q1, names_unique h2 q2, q3, q4⟩

/-- the call after the arguments have been checked -/
theorem callLambda_eq {L : Lam E B} (hd : Distinct L) {src : String} {curry auto : Bool} {nargs : List (String × Node E)} {args : List (Val E)} :
    (∃ named, namedArgs L.params nargs [] = some named ∧
      (args.length ≤ L.params.length ∨ (L.varargs = true ∧ L.params ≠ [])) ∧
      (∀ a ∈ nargs, ∃ (i : Nat) (p : Param E), L.params[i]? = some p ∧ Names L.params a.1 p.name ∧ args.length ≤ i ∧
        (L.varargs = true → i + 1 = L.params.length → ∃ l, a.2.val = .list l)) ∧
      callLambda L src curry auto nargs args =
        (if (curry || (auto && autoCurry L named (packArgs L src args).length)) = true then
          .curried (curryLambda L named (packArgs L src args).length
            (bindArgs src L.params (packArgs L src args) (named.foldl (fun r e => mset r e.1 e.2) L.static)))
        else match fillParams L.varargs named src (L.params.drop (packArgs L src args).length)
            (bindArgs src L.params (packArgs L src args) (named.foldl (fun r e => mset r e.1 e.2) L.static)) with
          | none => .err
          | some inp => .run inp)) ∨
    (callLambda L src curry auto nargs args = .err ∧ ¬ Accepts L nargs args) := by
  unfold callLambda
  cases hnm : namedArgs L.params nargs [] with
  | none =>
    right
    refine ⟨rfl, fun h => ?_⟩
    have : ∃ named, namedArgs L.params nargs [] = some named :=
      namedArgs_isSome.2 ⟨fun a ha => by obtain ⟨i, p, _, h2, _⟩ := h.names a ha; exact ⟨_, h2, rfl⟩, h.once⟩
    obtain ⟨n, hn⟩ := this
    rw [hnm] at hn; cases hn
  | some named =>
    simp only
    by_cases hc : L.params.length < (packArgs L src args).length
    · right
      rw [if_pos hc]
      refine ⟨rfl, fun h => ?_⟩
      have := (packArgs_count L src args).2 h.count
      omega
    · rw [if_neg hc]
      have hc' := (packArgs_count L src args).1 (by omega)
      cases ha : named.all (namedOk L (packArgs L src args).length) with
      | false =>
        right
        refine ⟨by simp, fun h => ?_⟩
        have := (namedOk_all hd hnm src args).2 h.names
        rw [ha] at this; cases this
      | true =>
        left
        refine ⟨named, rfl, hc', (namedOk_all hd hnm src args).1 ha, ?_⟩
        simp only [Bool.not_true, Bool.false_eq_true, if_false]
        split
        · rfl
        · split <;> rename_i h <;> simp only [h]

/-- C40: which calls are accepted (without currying): the arguments fit to the parameters and nothing is missing. -/
theorem call_runs_iff {L : Lam E B} (hd : Distinct L) (src : String) (nargs : List (String × Node E)) (args : List (Val E)) :
    (∃ inp, callLambda L src false false nargs args = .run inp) ↔ Accepts L nargs args := by
  rcases callLambda_eq hd (src := src) (curry := false) (auto := false) (nargs := nargs) (args := args) with
    ⟨named, hnm, h1, h2, h3⟩ | ⟨h1, h2⟩
  · rw [h3]
    simp only [Bool.false_and, Bool.or_self, Bool.false_eq_true, if_false]
    have hf := fill_isSome (varargs := L.varargs) (named := named) (src := src) (L.params.drop (packArgs L src args).length)
      (bindArgs src L.params (packArgs L src args) (named.foldl (fun r e => mset r e.1 e.2) L.static))
    have hall : (∀ (i : Nat) (p : Param E), (L.params.drop (packArgs L src args).length)[i]? = some p → (mget named p.name).isSome = true ∨
        p.default.isSome = true ∨ (L.varargs = true ∧ i + 1 = (L.params.drop (packArgs L src args).length).length)) ↔
        (∀ (i : Nat) (p : Param E), L.params[i]? = some p → i < args.length ∨ (∃ n, NamedBy L.params nargs p.name n) ∨ p.default.isSome = true ∨
          (L.varargs = true ∧ i + 1 = L.params.length)) := by
      have hnb : ∀ x, (mget named x).isSome = true ↔ ∃ n, NamedBy L.params nargs x n := by
        intro x
        rw [Option.isSome_iff_exists]
        constructor
        · rintro ⟨n, hn⟩
          rcases (namedArgs_get hnm x n).1 hn with h | h
          · simp [mget] at h
          · exact ⟨n, h⟩
        · rintro ⟨n, hn⟩; exact ⟨n, (namedArgs_get hnm x n).2 (.inr hn)⟩
      constructor
      · intro h i p hp
        have hi : i < L.params.length := (List.getElem?_eq_some_iff.1 hp).1
        by_cases hl : i < (packArgs L src args).length
        · exact .inl ((packArgs_length L src args i hi).1 hl)
        · right
          have := h (i - (packArgs L src args).length) p (by rw [List.getElem?_drop]; rw [← hp]; congr 1; omega)
          rw [hnb] at this
          rcases this with h | h | ⟨h, h'⟩
          · exact .inl h
          · exact .inr (.inl h)
          · rw [List.length_drop] at h'; exact .inr (.inr ⟨h, by omega⟩)
      · intro h i p hp
        rw [List.getElem?_drop] at hp
        have hi : (packArgs L src args).length + i < L.params.length := (List.getElem?_eq_some_iff.1 hp).1
        have hl : ¬ (packArgs L src args).length + i < args.length := by
          rw [← packArgs_length L src args _ hi]; omega
        rw [hnb]
        rcases h _ p hp with h | h | h | ⟨h, h'⟩
        · exact absurd h hl
        · exact .inl h
        · exact .inr (.inl h)
        · exact .inr (.inr ⟨h, by rw [List.length_drop]; omega⟩)
    rw [hall] at hf
    constructor
    · rintro ⟨inp, hi⟩
      refine ⟨h1, h2, (namedArgs_isSome.1 ⟨named, hnm⟩).2, hf.1 ?_⟩
      split at hi
      · cases hi
      · exact ⟨_, ‹_›⟩
    · intro h
      obtain ⟨inp, hi⟩ := hf.2 h.all
      exact ⟨inp, by rw [hi]⟩
  · rw [h1]
    simp only [reduceCtorEq, exists_const, false_iff]
    exact h2

/-- C40: the local scope of an accepted call: every parameter has the value given for it, and all other names have
the values of the static scope. -/
theorem call_binds {L : Lam E B} (hd : Distinct L) {src : String} {auto : Bool} {nargs : List (String × Node E)} {args : List (Val E)}
    {inp : List (String × Node E)} (h : callLambda L src false auto nargs args = .run inp) :
    (∀ (i : Nat) (p : Param E), L.params[i]? = some p → ∃ n, mget inp p.name = some n ∧ Given L src nargs args i p n) ∧
    (∀ x, (∀ p ∈ L.params, p.name ≠ x) → mget inp x = mget L.static x) := by
  rcases callLambda_eq hd (src := src) (curry := false) (auto := auto) (nargs := nargs) (args := args) with
    ⟨named, hnm, h1, h2, h3⟩ | ⟨h1, h2⟩
  · rw [h3] at h
    split at h
    · cases h
    · split at h
      · cases h
      · rename_i inp' hf
        cases h
        have hnd : ((L.params.drop (packArgs L src args).length).map (·.name)).Nodup := by
          rw [List.map_drop]; exact List.Nodup.sublist (List.drop_sublist _ _) hd
        obtain ⟨q1, q2⟩ := fill_get _ _ _ hnd hf
        have nb : ∀ x n, mget named x = some n → NamedBy L.params nargs x n := by
          intro x n hn
          rcases (namedArgs_get hnm x n).1 hn with h | h
          · simp [mget] at h
          · exact h
        have nn : ∀ x, mget named x = none → ∀ n, ¬ NamedBy L.params nargs x n := by
          intro x hx n hn
          rw [(namedArgs_get hnm x n).2 (.inr hn)] at hx; cases hx
        constructor
        · intro i p hp
          have hi : i < L.params.length := (List.getElem?_eq_some_iff.1 hp).1
          by_cases hl : i < (packArgs L src args).length
          · obtain ⟨v, hv⟩ : ∃ v, (packArgs L src args)[i]? = some v := ⟨_, List.getElem?_eq_getElem hl⟩
            refine ⟨Node.new v (dynSource src), ?_, packArgs_get hp hv⟩
            rw [q2, bindArgs_at _ _ _ hd i p v hp hv]
            intro j q hq he
            rw [List.getElem?_drop] at hq
            have e1 := paramIndex_iff hd hp
            have e2 := paramIndex_iff hd hq
            rw [he, e1] at e2
            simp only [Option.some.injEq] at e2
            omega
          · have hla : args.length ≤ i := by have := packArgs_length L src args i hi; omega
            obtain ⟨n, r1, r2⟩ := q1 (i - (packArgs L src args).length) p (by rw [List.getElem?_drop]; rw [← hp]; congr 1; omega)
            refine ⟨n, r1, ?_⟩
            cases r2 with
            | named h => exact .named hla (nb _ _ h)
            | default h h' => exact .default hla (nn _ h) h'
            | empty h h' h'' h3 =>
              refine .empty hla (nn _ h) h' h'' ?_
              rw [List.length_drop] at h3; omega
        · intro x hx
          rw [q2, bindArgs_other]
          · refine (setAll_get named L.static x).2 ?_
            intro hm
            obtain ⟨⟨y, n⟩, hy, rfl⟩ := List.mem_map.1 hm
            have hok := namedArgs_ok hnm (by simp [MapOK, mkeys])
            obtain ⟨k, k1, k2⟩ := nb _ _ (mget_of_mem hok hy)
            obtain ⟨i, p, p1, p2, _⟩ := h2 _ k1
            exact hx p (List.mem_of_getElem? p1) (names_unique p2 k2)
          · intro i p hp he; exact absurd he (hx p (List.mem_of_getElem? hp))
          · intro i p hp; exact hx p (List.mem_of_mem_drop (List.mem_of_getElem? hp))
  · rw [h1] at h; cases h

end Spiff
