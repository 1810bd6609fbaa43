import Verif.Props.Lambda
/-
C40: currying.
-/
namespace Spiff
open Spec
variable {E B : Type}

/-- an accepted value for a parameter is unique -/
theorem given_unique {L : Lam E B} {src : String} {nargs : List (String × Node E)} {args : List (Val E)} {i : Nat} {p : Param E}
    (ho : nargs.Pairwise (fun a b => ∀ x, Names L.params a.1 x → ¬ Names L.params b.1 x))
    {n m : Node E} (h : Given L src nargs args i p n) (h' : Given L src nargs args i p m) : n = m := by
  have hnb : ∀ n m, NamedBy L.params nargs p.name n → NamedBy L.params nargs p.name m → n = m := by
    rintro n m ⟨k, hk, hn⟩ ⟨k', hk', hn'⟩
    have : ∀ (l : List (String × Node E)), l.Pairwise (fun a b => ∀ x, Names L.params a.1 x → ¬ Names L.params b.1 x) →
        (k, n) ∈ l → (k', m) ∈ l → n = m := by
      intro l
      induction l with
      | nil => intro _ h; cases h
      | cons a r ih =>
        intro hp h1 h2
        rw [List.pairwise_cons] at hp
        rcases List.mem_cons.1 h1 with e1 | e1
        · rcases List.mem_cons.1 h2 with e2 | e2
          · rw [← e1] at e2; cases e2; rfl
          · subst e1; exact absurd hn' (hp.1 (k', m) e2 _ hn)
        · rcases List.mem_cons.1 h2 with e2 | e2
          · subst e2; exact absurd hn (hp.1 (k, n) e1 _ hn')
          · exact ih hp.2 e1 e2
    exact this nargs ho hk hk'
  have hlt : ∀ {v : Val E}, args[i]? = some v → i < args.length := fun h => (List.getElem?_eq_some_iff.1 h).1
  cases h with
  | positional h1 h2 =>
    cases h' with
    | positional h3 h4 => rw [h2] at h4; cases h4; rfl
    | surplus h3 h4 h5 => exact absurd ⟨h3, h4⟩ h1
    | named h3 h4 => have := hlt h2; omega
    | default h3 => have := hlt h2; omega
    | empty h3 => have := hlt h2; omega
  | surplus h1 h2 h3 =>
    cases h' with
    | positional h4 h5 => exact absurd ⟨h1, h2⟩ h4
    | surplus => rfl
    | named h4 => omega
    | default h4 => omega
    | empty h4 => omega
  | named h1 h2 =>
    cases h' with
    | positional h3 h4 => have := hlt h4; omega
    | surplus h3 h4 h5 => omega
    | named h3 h4 => exact hnb _ _ h2 h4
    | default h3 h4 => exact absurd h2 (h4 _)
    | empty h3 h4 => exact absurd h2 (h4 _)
  | default h1 h2 h3 =>
    cases h' with
    | positional h4 h5 => have := hlt h5; omega
    | surplus h4 h5 h6 => omega
    | named h4 h5 => exact absurd h5 (h2 _)
    | default h4 h5 h6 => rw [h3] at h6; cases h6; rfl
    | empty h4 h5 h6 => rw [h3] at h6; cases h6
  | empty h1 h2 h3 h4 h5 =>
    cases h' with
    | positional h6 h7 => have := hlt h7; omega
    | surplus h6 h7 h8 => omega
    | named h6 h7 => exact absurd h7 (h2 _)
    | default h6 h7 h8 => rw [h3] at h8; cases h8
    | empty => rfl

/-- a call without currying runs or is rejected -/
theorem call_run_or_err {L : Lam E B} (src : String) (nargs : List (String × Node E)) (args : List (Val E)) :
    callLambda L src false false nargs args = .err ∨ ∃ inp, callLambda L src false false nargs args = .run inp := by
  unfold callLambda
  split
  · exact .inl rfl
  · simp only
    split
    · exact .inl rfl
    · split
      · exact .inl rfl
      · simp only [Bool.false_and, Bool.or_self, Bool.false_eq_true, if_false]
        split
        · exact .inl rfl
        · exact .inr ⟨_, rfl⟩

/-- the outcome of currying -/
theorem call_curried {L L' : Lam E B} (hd : Distinct L) {src : String} {auto : Bool} {nargs : List (String × Node E)} {args : List (Val E)}
    (h : callLambda L src true auto nargs args = .curried L') :
    ∃ named, namedArgs L.params nargs [] = some named ∧
      (args.length ≤ L.params.length ∨ (L.varargs = true ∧ L.params ≠ [])) ∧
      (∀ a ∈ nargs, ∃ (i : Nat) (p : Param E), L.params[i]? = some p ∧ Names L.params a.1 p.name ∧ args.length ≤ i ∧
        (L.varargs = true → i + 1 = L.params.length → ∃ l, a.2.val = .list l)) ∧
      L' = curryLambda L named (packArgs L src args).length
            (bindArgs src L.params (packArgs L src args) (named.foldl (fun r e => mset r e.1 e.2) L.static)) := by
  rcases callLambda_eq hd (src := src) (curry := true) (auto := auto) (nargs := nargs) (args := args) with
    ⟨named, hnm, h1, h2, h3⟩ | ⟨h1, h2⟩
  · rw [h3] at h
    simp only [Bool.true_or, if_true] at h
    cases h
    exact ⟨named, hnm, h1, h2, rfl⟩
  · rw [h1] at h; cases h

/-- named arguments which are no indices -/
def ByName (nargs : List (String × Node E)) : Prop := ∀ a ∈ nargs, parseInt32 a.1 = none

theorem names_byName {params : List (Param E)} {k x : String} (h : parseInt32 k = none) : Names params k x ↔ x = k := by
  unfold Names
  rw [h]
  simp

theorem namedBy_byName {params : List (Param E)} {nargs : List (String × Node E)} (h : ByName nargs) (x : String) (n : Node E) :
    NamedBy params nargs x n ↔ (x, n) ∈ nargs := by
  constructor
  · rintro ⟨k, h1, h2⟩
    rw [names_byName (h _ h1)] at h2
    exact h2 ▸ h1
  · intro h1; exact ⟨x, h1, (names_byName (h _ h1)).2 rfl⟩

theorem once_byName {params params' : List (Param E)} {nargs : List (String × Node E)} (h : ByName nargs)
    (ho : nargs.Pairwise (fun a b => ∀ x, Names params a.1 x → ¬ Names params b.1 x)) :
    nargs.Pairwise (fun a b => ∀ x, Names params' a.1 x → ¬ Names params' b.1 x) := by
  refine List.Pairwise.imp_of_mem ?_ ho
  intro a b ha hb hab x hx hx'
  rw [names_byName (h a ha)] at hx
  rw [names_byName (h b hb)] at hx'
  exact hab x ((names_byName (h a ha)).2 hx) ((names_byName (h b hb)).2 hx')

/-- C40: currying by position: a curried lambda called with the remaining arguments behaves like the lambda called with
all of them. For variadic lambdas the variadic parameter must not be reached by the first call, see `variadic_curry_defect`. -/
theorem curry_full {L L' : Lam E B} (hd : Distinct L) {src : String} {auto : Bool} {as1 as2 : List (Val E)}
    (hv : L.varargs = true → as1.length < L.params.length)
    (h : callLambda L src true auto [] as1 = .curried L')
    {nargs : List (String × Node E)} (hb : ByName nargs) :
    SameCall (callLambda L' src false false nargs as2) (callLambda L src false false nargs (as1 ++ as2)) := by
  obtain ⟨named, hnm, h1, -, hL⟩ := call_curried hd h
  simp only [namedArgs, Option.some.injEq] at hnm
  subst hnm
  have hpk : packArgs L src as1 = as1 := by
    unfold packArgs
    rw [if_neg]
    rintro ⟨q1, q2⟩
    have := hv q1
    omega
  have hk : as1.length ≤ L.params.length := by
    rcases h1 with h1 | h1
    · exact h1
    · have := hv h1.1; omega
  rw [hpk] at hL
  have hps : L'.params = L.params.drop as1.length := by
    rw [hL]
    show (L.params.drop as1.length).filter _ = _
    rw [List.filter_eq_self]
    intro p _; rfl
  have hst : L'.static = bindArgs src L.params as1 L.static := by rw [hL]; rfl
  have hva : L'.varargs = L.varargs := by
    rw [hL]
    show (L.varargs && decide (as1.length < L.params.length) && _) = _
    cases hvv : L.varargs with
    | false => rfl
    | true =>
      have := hv hvv
      rw [decide_eq_true this]
      cases hl : L.params.getLast? with
      | none => rw [List.getLast?_eq_none_iff] at hl; rw [hl] at this; simp at this
      | some p => rfl
  have hd' : Distinct L' := by
    unfold Distinct
    rw [hps, List.map_drop]
    exact List.Nodup.sublist (List.drop_sublist _ _) hd
  have hix : ∀ (i : Nat), L'.params[i]? = L.params[as1.length + i]? := by intro i; rw [hps, List.getElem?_drop]
  have hln : L'.params.length = L.params.length - as1.length := by rw [hps, List.length_drop]
  have hacc : Accepts L' nargs as2 ↔ Accepts L nargs (as1 ++ as2) := by
    constructor
    · rintro ⟨c1, c2, c3, c4⟩
      refine ⟨?_, ?_, once_byName hb c3, ?_⟩
      · rw [List.length_append]
        rcases c1 with c1 | ⟨c1, c1'⟩
        · left; omega
        · right
          refine ⟨hva ▸ c1, ?_⟩
          intro h0; rw [hps, h0] at c1'; simp at c1'
      · intro a ha
        obtain ⟨i, p, q1, q2, q3, q4⟩ := c2 a ha
        refine ⟨as1.length + i, p, by rw [← hix]; exact q1, ?_, ?_, fun w1 w2 => q4 (hva ▸ w1) (by omega)⟩
        · rw [names_byName (hb a ha)] at q2 ⊢; exact q2
        · rw [List.length_append]; omega
      · intro i p hp
        have hi : i < L.params.length := (List.getElem?_eq_some_iff.1 hp).1
        by_cases hlt : i < as1.length
        · left; rw [List.length_append]; omega
        · have := c4 (i - as1.length) p (by rw [hix, ← hp]; congr 1; omega)
          rcases this with g | ⟨n, g⟩ | g | ⟨g, g'⟩
          · left; rw [List.length_append]; omega
          · rw [namedBy_byName hb] at g
            exact .inr (.inl ⟨n, (namedBy_byName hb _ _).2 g⟩)
          · exact .inr (.inr (.inl g))
          · exact .inr (.inr (.inr ⟨hva ▸ g, by omega⟩))
    · rintro ⟨c1, c2, c3, c4⟩
      rw [List.length_append] at c1
      refine ⟨?_, ?_, once_byName hb c3, ?_⟩
      · rcases c1 with c1 | ⟨c1, c1'⟩
        · left; omega
        · right
          refine ⟨hva ▸ c1, ?_⟩
          have := hv c1
          intro h0
          rw [h0] at hln; simp at hln; omega
      · intro a ha
        obtain ⟨i, p, q1, q2, q3, q4⟩ := c2 a ha
        rw [List.length_append] at q3
        refine ⟨i - as1.length, p, by rw [hix, ← q1]; congr 1; omega, ?_, by omega, fun w1 w2 => q4 (hva ▸ w1) (by omega)⟩
        rw [names_byName (hb a ha)] at q2 ⊢; exact q2
      · intro i p hp
        have hi : i < L'.params.length := (List.getElem?_eq_some_iff.1 hp).1
        have := c4 (as1.length + i) p (by rw [← hix]; exact hp)
        rw [List.length_append] at this
        rcases this with g | ⟨n, g⟩ | g | ⟨g, g'⟩
        · left; omega
        · rw [namedBy_byName hb] at g
          exact .inr (.inl ⟨n, (namedBy_byName hb _ _).2 g⟩)
        · exact .inr (.inr (.inl g))
        · exact .inr (.inr (.inr ⟨hva ▸ g, by omega⟩))
  rcases call_run_or_err (L := L') src nargs as2 with e1 | ⟨i1, e1⟩
  · rcases call_run_or_err (L := L) src nargs (as1 ++ as2) with e2 | ⟨i2, e2⟩
    · rw [e1, e2]; exact .err
    · obtain ⟨i1, e3⟩ := (call_runs_iff hd' src nargs as2).2 (hacc.2 ((call_runs_iff hd src nargs _).1 ⟨i2, e2⟩))
      rw [e1] at e3; cases e3
  · have ha2 := (call_runs_iff hd' src nargs as2).1 ⟨i1, e1⟩
    have ha := hacc.1 ha2
    obtain ⟨i2, e2⟩ := (call_runs_iff hd src nargs _).2 ha
    rw [e1, e2]
    refine .run fun x => ?_
    obtain ⟨b1, b2⟩ := call_binds hd' e1
    obtain ⟨b3, b4⟩ := call_binds hd e2
    by_cases hx : ∃ (i : Nat) (p : Param E), L.params[i]? = some p ∧ p.name = x
    · obtain ⟨i, p, hp, rfl⟩ := hx
      obtain ⟨m, g1, g2⟩ := b3 i p hp
      have hi : i < L.params.length := (List.getElem?_eq_some_iff.1 hp).1
      rw [g1]
      by_cases hlt : i < as1.length
      · rw [b2, hst]
        · rw [bindArgs_at _ _ _ hd i p as1[i] hp (List.getElem?_eq_getElem hlt)]
          refine congrArg some (given_unique ha.once ?_ g2)
          refine .positional (fun w => ?_) ?_
          · have := hv w.1; omega
          · rw [List.getElem?_append_left hlt]; exact List.getElem?_eq_getElem hlt
        · intro q hq he
          obtain ⟨j, hj⟩ := List.mem_iff_getElem?.1 hq
          rw [hix] at hj
          have w1 := paramIndex_iff hd hp
          have w2 := paramIndex_iff hd hj
          rw [he, w1] at w2
          simp only [Option.some.injEq] at w2
          omega
      · obtain ⟨n, g3, g4⟩ := b1 (i - as1.length) p (by rw [hix, ← hp]; congr 1; omega)
        rw [g3]
        refine congrArg some (given_unique ha.once ?_ g2)
        cases g4 with
        | positional w1 w2 =>
          refine .positional (fun w => w1 ⟨hva ▸ w.1, by omega⟩) ?_
          rw [List.getElem?_append_right (by omega)]; exact w2
        | surplus w1 w2 w3 =>
          have : as2.drop (i - as1.length) = (as1 ++ as2).drop i := by
            rw [List.drop_append, List.drop_eq_nil_of_le (show as1.length ≤ i by omega), List.nil_append]
          rw [this]
          exact .surplus (hva ▸ w1) (by omega) (by rw [List.length_append]; omega)
        | named w1 w2 =>
          rw [namedBy_byName hb] at w2
          exact .named (by rw [List.length_append]; omega) ((namedBy_byName hb _ _).2 w2)
        | default w1 w2 w3 =>
          refine .default (by rw [List.length_append]; omega) (fun n w => w2 n ?_) w3
          rw [namedBy_byName hb] at w ⊢; exact w
        | empty w1 w2 w3 w4 w5 =>
          refine .empty (by rw [List.length_append]; omega) (fun n w => w2 n ?_) w3 (hva ▸ w4) (by omega)
          rw [namedBy_byName hb] at w ⊢; exact w
    · rw [b2, b4, hst, bindArgs_other]
      · intro i p hp he; exact absurd ⟨i, p, hp, he⟩ hx
      · intro p hp he
        obtain ⟨j, hj⟩ := List.mem_iff_getElem?.1 hp
        exact hx ⟨j, p, hj, he⟩
      · intro p hp he
        obtain ⟨j, hj⟩ := List.mem_iff_getElem?.1 hp
        rw [hix] at hj
        exact hx ⟨_, p, hj, he⟩

/-- the last parameter, independent of indices -/
theorem last_iff {params : List (Param E)} {i : Nat} {p : Param E} (hn : (params.map (·.name)).Nodup) (hp : params[i]? = some p) :
    i + 1 = params.length ↔ params.getLast? = some p := by
  have hi : i < params.length := (List.getElem?_eq_some_iff.1 hp).1
  rw [List.getLast?_eq_getElem?]
  constructor
  · intro h
    have : params.length - 1 = i := by omega
    rw [this, hp]
  · intro h
    have h1 := paramIndex_iff hn hp
    have h2 := paramIndex_iff hn h
    rw [h1] at h2
    simp only [Option.some.injEq] at h2
    omega

/-- C40: currying by name: giving some arguments by name (and possibly some by position), and the others by name later, has
the same effect as giving all of them at once. -/
theorem curry_named {L L' : Lam E B} (hd : Distinct L) {src : String} {auto : Bool} {as : List (Val E)}
    {nargs nargs' : List (String × Node E)} (hb : ByName nargs) (hb' : ByName nargs')
    (h : callLambda L src true auto nargs as = .curried L') :
    SameCall (callLambda L' src false false nargs' []) (callLambda L src false false (nargs ++ nargs') as) := by
  obtain ⟨named, hnm, h1, h2, hL⟩ := call_curried hd h
  have honce := (namedArgs_isSome.1 ⟨named, hnm⟩).2
  have hbb : ByName (nargs ++ nargs') := by
    intro a ha
    rcases List.mem_append.1 ha with ha | ha
    · exact hb a ha
    · exact hb' a ha
  have hng : ∀ x n, mget named x = some n ↔ (x, n) ∈ nargs := by
    intro x n
    rw [namedArgs_get hnm, namedBy_byName hb]
    simp [mget]
  have hnn : ∀ x, mget named x = none ↔ ∀ n, (x, n) ∉ nargs := by
    intro x
    constructor
    · intro h0 n hn; rw [(hng x n).2 hn] at h0; cases h0
    · intro h0
      cases hx : mget named x with
      | none => rfl
      | some n => exact absurd ((hng x n).1 hx) (h0 n)
  have hks : (packArgs L src as).length ≤ L.params.length := (packArgs_count L src as).2 h1
  have hpl := packArgs_length L src as
  -- the remaining parameters
  have hps : L'.params = (L.params.drop (packArgs L src as).length).filter (fun p => (mget named p.name).isNone) := by rw [hL]; rfl
  have hst : L'.static = bindArgs src L.params (packArgs L src as) (named.foldl (fun r e => mset r e.1 e.2) L.static) := by rw [hL]; rfl
  have hrem : ∀ p, p ∈ L'.params ↔ ∃ i, L.params[i]? = some p ∧ as.length ≤ i ∧ mget named p.name = none := by
    intro p
    rw [hps, List.mem_filter, List.mem_iff_getElem?]
    constructor
    · rintro ⟨⟨i, hi⟩, hp⟩
      rw [List.getElem?_drop] at hi
      refine ⟨_, hi, ?_, by simpa using hp⟩
      have := hpl _ (List.getElem?_eq_some_iff.1 hi).1
      omega
    · rintro ⟨i, hi, hle, hp⟩
      have := hpl _ (List.getElem?_eq_some_iff.1 hi).1
      refine ⟨⟨i - (packArgs L src as).length, ?_⟩, by simpa using hp⟩
      rw [List.getElem?_drop, ← hi]; congr 1; omega
  have hd' : Distinct L' := by
    unfold Distinct
    rw [hps]
    exact List.Nodup.sublist (List.Sublist.map _ (List.filter_sublist.trans (List.drop_sublist _ _))) hd
  -- the variadic parameter
  have hvl : ∀ p, (L'.varargs = true ∧ L'.params.getLast? = some p) ↔
      (L.varargs = true ∧ L.params.getLast? = some p ∧ (packArgs L src as).length < L.params.length ∧ mget named p.name = none) := by
    intro p
    have hva : L'.varargs = (L.varargs && decide ((packArgs L src as).length < L.params.length) &&
      (match L.params.getLast? with | some p => (mget named p.name).isNone | none => false)) := by rw [hL]; rfl
    have hlast : ∀ q, (packArgs L src as).length < L.params.length → L.params.getLast? = some q → mget named q.name = none →
        L'.params.getLast? = some q := by
      intro q q1 q2 q3
      obtain ⟨l, hl⟩ := List.getLast?_eq_some_iff.1 q2
      have hk' : (packArgs L src as).length ≤ l.length := by rw [hl] at q1; simp at q1; omega
      rw [hps, hl, List.drop_append_of_le_length hk', List.filter_append, List.filter_cons_of_pos (by simpa using q3), List.filter_nil]
      simp
    rw [hva]
    cases hl : L.params.getLast? with
    | none => simp
    | some q =>
      simp only [Bool.and_eq_true, decide_eq_true_eq, Option.isNone_iff_eq_none, Option.some.injEq]
      constructor
      · rintro ⟨⟨⟨w1, w2⟩, w3⟩, w4⟩
        have := hlast q w2 hl w3
        rw [this] at w4
        cases w4
        exact ⟨w1, rfl, w2, w3⟩
      · rintro ⟨w1, rfl, w2, w3⟩
        exact ⟨⟨⟨w1, w2⟩, w3⟩, hlast q w2 hl w3⟩
  have hsplit : ∀ x n, (x, n) ∈ nargs ++ nargs' ↔ (x, n) ∈ nargs ∨ (x, n) ∈ nargs' := fun x n => List.mem_append
  have hlast' : ∀ (i j : Nat) (p : Param E), L.params[i]? = some p → as.length ≤ i → mget named p.name = none → L'.params[j]? = some p →
      ((L'.varargs = true ∧ j + 1 = L'.params.length) ↔ (L.varargs = true ∧ i + 1 = L.params.length)) := by
    intro i j p hi hle hnone hj
    rw [last_iff hd' hj, last_iff hd hi, hvl]
    have := hpl i (List.getElem?_eq_some_iff.1 hi).1
    have hlt := (List.getElem?_eq_some_iff.1 hi).1
    constructor
    · rintro ⟨w1, w2, _⟩; exact ⟨w1, w2⟩
    · rintro ⟨w1, w2⟩; exact ⟨w1, w2, by omega, hnone⟩
  have hacc : Accepts L' nargs' [] ↔ Accepts L (nargs ++ nargs') as := by
    constructor
    · rintro ⟨c1, c2, c3, c4⟩
      refine ⟨h1, ?_, ?_, ?_⟩
      · intro a ha
        rcases List.mem_append.1 ha with ha | ha
        · exact h2 a ha
        · obtain ⟨j, p, q1, q2, -, q4⟩ := c2 a ha
          obtain ⟨i, w1, w2, w3⟩ := (hrem p).1 (List.mem_of_getElem? q1)
          rw [names_byName (hb' a ha)] at q2
          refine ⟨i, p, w1, (names_byName (hb' a ha)).2 q2, w2, fun v1 v2 => ?_⟩
          have := (hlast' i j p w1 w2 w3 q1).2 ⟨v1, v2⟩
          exact q4 this.1 this.2
      · rw [List.pairwise_append]
        refine ⟨honce, once_byName hb' c3, fun a ha b hbm x hx hx' => ?_⟩
        rw [names_byName (hb a ha)] at hx
        rw [names_byName (hb' b hbm)] at hx'
        obtain ⟨j, p, q1, q2, -⟩ := c2 b hbm
        rw [names_byName (hb' b hbm)] at q2
        obtain ⟨i, w1, w2, w3⟩ := (hrem p).1 (List.mem_of_getElem? q1)
        refine (hnn _).1 w3 a.2 ?_
        rw [q2, ← hx', hx]; exact ha
      · intro i p hp
        by_cases hlt : i < as.length
        · exact .inl hlt
        · right
          cases hx : mget named p.name with
          | some n => exact .inl ⟨n, (namedBy_byName hbb _ _).2 ((hsplit _ _).2 (.inl ((hng _ _).1 hx)))⟩
          | none =>
            obtain ⟨j, hj⟩ := List.mem_iff_getElem?.1 ((hrem p).2 ⟨i, hp, by omega, hx⟩)
            rcases c4 j p hj with g | ⟨n, g⟩ | g | g
            · simp at g
            · rw [namedBy_byName hb'] at g
              exact .inl ⟨n, (namedBy_byName hbb _ _).2 ((hsplit _ _).2 (.inr g))⟩
            · exact .inr (.inl g)
            · exact .inr (.inr ((hlast' i j p hp (by omega) hx hj).1 g))
    · rintro ⟨c1, c2, c3, c4⟩
      rw [List.pairwise_append] at c3
      refine ⟨.inl (by simp), ?_, once_byName hb' c3.2.1, ?_⟩
      · intro a ha
        obtain ⟨i, p, q1, q2, q3, q4⟩ := c2 a (List.mem_append.2 (.inr ha))
        rw [names_byName (hb' a ha)] at q2
        have hx : mget named p.name = none := by
          rw [hnn]
          intro n hn
          exact c3.2.2 _ hn a ha p.name ((names_byName (hb _ hn)).2 rfl) ((names_byName (hb' a ha)).2 q2)
        obtain ⟨j, hj⟩ := List.mem_iff_getElem?.1 ((hrem p).2 ⟨i, q1, q3, hx⟩)
        refine ⟨j, p, hj, (names_byName (hb' a ha)).2 q2, by simp, fun v1 v2 => ?_⟩
        have := (hlast' i j p q1 q3 hx hj).1 ⟨v1, v2⟩
        exact q4 this.1 this.2
      · intro j p hj
        obtain ⟨i, w1, w2, w3⟩ := (hrem p).1 (List.mem_of_getElem? hj)
        right
        rcases c4 i p w1 with g | ⟨n, g⟩ | g | g
        · omega
        · rw [namedBy_byName hbb, hsplit] at g
          rcases g with g | g
          · exact absurd g ((hnn _).1 w3 n)
          · exact .inl ⟨n, (namedBy_byName hb' _ _).2 g⟩
        · exact .inr (.inl g)
        · exact .inr (.inr ((hlast' i j p w1 w2 w3 hj).2 g))
  rcases call_run_or_err (L := L') src nargs' [] with e1 | ⟨i1, e1⟩
  · rcases call_run_or_err (L := L) src (nargs ++ nargs') as with e2 | ⟨i2, e2⟩
    · rw [e1, e2]; exact .err
    · obtain ⟨i1, e3⟩ := (call_runs_iff hd' src nargs' []).2 (hacc.2 ((call_runs_iff hd src _ _).1 ⟨i2, e2⟩))
      rw [e1] at e3; cases e3
  · have ha := hacc.1 ((call_runs_iff hd' src nargs' []).1 ⟨i1, e1⟩)
    obtain ⟨i2, e2⟩ := (call_runs_iff hd src _ _).2 ha
    rw [e1, e2]
    refine .run fun x => ?_
    obtain ⟨b1, b2⟩ := call_binds hd' e1
    obtain ⟨b3, b4⟩ := call_binds hd e2
    have hok := namedArgs_ok hnm (by simp [MapOK, mkeys])
    by_cases hx : ∃ (i : Nat) (p : Param E), L.params[i]? = some p ∧ p.name = x
    · obtain ⟨i, p, hp, rfl⟩ := hx
      obtain ⟨m, g1, g2⟩ := b3 i p hp
      have hi : i < L.params.length := (List.getElem?_eq_some_iff.1 hp).1
      have huniq : ∀ (j : Nat) (q : Param E), L.params[j]? = some q → q.name = p.name → j = i := by
        intro j q hq he
        have w1 := paramIndex_iff hd hp
        have w2 := paramIndex_iff hd hq
        rw [he, w1] at w2
        simpa using w2.symm
      rw [g1]
      have hsame : ∀ n, Given L src (nargs ++ nargs') as i p n → mget i1 p.name = some n → mget i1 p.name = some m := by
        intro n hn hm
        rw [hm]; exact congrArg some (given_unique ha.once hn g2)
      by_cases hlt : i < (packArgs L src as).length
      · refine hsame _ (packArgs_get hp (List.getElem?_eq_getElem hlt)) ?_
        rw [b2, hst, bindArgs_at _ _ _ hd i p _ hp (List.getElem?_eq_getElem hlt)]
        intro q hq he
        obtain ⟨j, w1, w2, w3⟩ := (hrem q).1 hq
        have := huniq j q w1 he
        have := hpl i hi
        omega
      · have hle : as.length ≤ i := by have := hpl i hi; omega
        cases hnx : mget named p.name with
        | some n =>
          refine hsame n (.named hle ((namedBy_byName hbb _ _).2 ((hsplit _ _).2 (.inl ((hng _ _).1 hnx))))) ?_
          rw [b2, hst, bindArgs_other]
          · exact (setAll_ok_get hok L.static p.name).trans (by rw [hnx]; rfl)
          · intro j q hq he
            have := huniq j q hq he
            omega
          · intro q hq he
            obtain ⟨j, w1, w2, w3⟩ := (hrem q).1 hq
            rw [he, hnx] at w3; cases w3
        | none =>
          obtain ⟨j, hj⟩ := List.mem_iff_getElem?.1 ((hrem p).2 ⟨i, hp, hle, hnx⟩)
          obtain ⟨n, g3, g4⟩ := b1 j p hj
          refine hsame n ?_ g3
          have hnb : ∀ n, NamedBy L.params (nargs ++ nargs') p.name n ↔ NamedBy L'.params nargs' p.name n := by
            intro n
            rw [namedBy_byName hbb, namedBy_byName hb', hsplit]
            constructor
            · rintro (g | g)
              · exact absurd g ((hnn _).1 hnx n)
              · exact g
            · exact .inr
          cases g4 with
          | positional w1 w2 => simp at w2
          | surplus w1 w2 w3 => simp at w3
          | named w1 w2 => exact .named hle ((hnb _).2 w2)
          | default w1 w2 w3 => exact .default hle (fun n w => w2 n ((hnb n).1 w)) w3
          | empty w1 w2 w3 w4 w5 =>
            have := (hlast' i j p hp hle hnx hj).1 ⟨w4, w5⟩
            exact .empty hle (fun n w => w2 n ((hnb n).1 w)) w3 this.1 this.2
    · rw [b2, b4, hst, bindArgs_other]
      · refine (setAll_get named L.static x).2 ?_
        intro hm
        obtain ⟨⟨y, n⟩, hy, rfl⟩ := List.mem_map.1 hm
        have := (hng _ _).1 (mget_of_mem hok hy)
        obtain ⟨i, p, q1, q2, -⟩ := h2 _ this
        exact hx ⟨i, p, q1, (names_byName (hb _ this)).1 q2⟩
      · intro i p hp he; exact absurd ⟨i, p, hp, he⟩ hx
      · intro p hp he
        obtain ⟨j, hj⟩ := List.mem_iff_getElem?.1 hp
        exact hx ⟨j, p, hj, he⟩
      · intro p hp he
        obtain ⟨j, w1, _⟩ := (hrem p).1 hp
        exact hx ⟨j, p, w1, he⟩

end Spiff
