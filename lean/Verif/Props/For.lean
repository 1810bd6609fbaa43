import Verif.Props.Control
import Verif.Spec.For
import Verif.Props.MapFns
import Verif.Props.Values
/-
C43: the for control iterates over the cartesian product of its ranges, in lexicographic order.
-/
namespace Spiff
open Spec
variable {E F : Type}

/-! ### the order of the combinations -/

theorem mem_combos (ns : List Nat) (p : List Nat) : p ∈ combos ns ↔ List.Forall₂ (fun i n => i < n) p ns := by
  induction ns generalizing p with
  | nil => simp [combos, List.forall₂_nil_right_iff]
  | cons n ns ih =>
    simp only [combos, List.mem_flatMap, List.mem_range, List.mem_map]
    constructor
    · rintro ⟨i, hi, q, hq, rfl⟩
      exact .cons hi ((ih q).1 hq)
    · intro h
      cases h with
      | cons hi hq => exact ⟨_, hi, _, (ih _).2 hq, rfl⟩

/-- **C43**: the combinations are enumerated in strictly ascending lexicographic order (so none occurs twice). -/
theorem combos_sorted (ns : List Nat) : (combos ns).Pairwise LexLt := by
  induction ns with
  | nil => simp [combos]
  | cons n ns ih =>
    rw [combos, List.pairwise_flatMap]
    constructor
    · intro i _
      rw [List.pairwise_map]
      exact ih.imp (fun h => .tail h)
    · exact List.pairwise_lt_range.imp (fun {a b} hab p hp q hq => by
        simp only [List.mem_map] at hp hq
        obtain ⟨_, _, rfl⟩ := hp
        obtain ⟨_, _, rfl⟩ := hq
        exact .head hab)

theorem combos_append (l : List Nat) (n : Nat) :
    combos (l ++ [n]) = (combos l).flatMap (fun p => (List.range n).map (fun i => p ++ [i])) := by
  induction l with
  | nil =>
    simp only [List.nil_append, combos, List.flatMap_cons, List.flatMap_nil, List.append_nil]
    induction List.range n with
    | nil => rfl
    | cons a r ih => rw [List.flatMap_cons, ih]; rfl
  | cons a r ih =>
    rw [List.cons_append, combos, combos, ih, List.flatMap_assoc]
    congr 1
    funext i
    rw [List.map_flatMap, List.flatMap_map]
    simp [Function.comp_def]

/-- all positions in the order of the loop (innermost position first) -/
def visits : List Nat → List (List Nat)
  | [] => [[]]
  | n :: ns => (visits ns).flatMap (fun cs => (List.range n).map (fun c => c :: cs))

theorem visits_combos (lens : List Nat) : visits lens = (combos lens.reverse).map List.reverse := by
  induction lens with
  | nil => rfl
  | cons n ns ih =>
    rw [visits, ih, List.reverse_cons, combos_append, List.map_flatMap, List.flatMap_map]
    simp [Function.comp_def]

/-- the positions still to be visited -/
def rest : List Nat → List Nat → List (List Nat)
  | n :: ns, c :: cs =>
    (List.range' c (n - c)).map (fun x => x :: cs) ++ (rest ns cs).tail.flatMap (fun cs' => (List.range n).map (fun x => x :: cs'))
  | _, _ => [[]]

theorem advance_valid {lens pos p : List Nat} (hv : List.Forall₂ (fun c n => c < n) pos lens) (h : advance lens pos = some p) :
    List.Forall₂ (fun c n => c < n) p lens := by
  induction hv generalizing p with
  | nil => simp [advance] at h
  | cons hc hr ih =>
    rw [advance] at h
    split at h
    · next hlt => simp only [Option.some.injEq] at h; subst h; exact .cons hlt hr
    · simp only [Option.map_eq_some_iff] at h
      obtain ⟨q, hq, rfl⟩ := h
      exact .cons (by omega) (ih hq)

theorem rest_step {lens pos : List Nat} (hv : List.Forall₂ (fun c n => c < n) pos lens) :
    rest lens pos = pos :: (match advance lens pos with | none => [] | some p => rest lens p) := by
  induction hv with
  | nil => simp [rest, advance]
  | @cons c n cs ns hc hr ih =>
    rw [rest, advance]
    by_cases hlt : c + 1 < n
    · rw [if_pos hlt]
      simp only
      rw [rest, show n - c = (n - (c + 1)) + 1 by omega, List.range'_succ]
      simp
    · rw [if_neg hlt]
      have : n - c = 1 := by omega
      rw [this, ih]
      cases ha : advance ns cs with
      | none => simp
      | some p =>
        have hp := advance_valid hr ha
        simp only [Option.map_some, List.tail_cons, rest]
        have hz : rest ns p = p :: (rest ns p).tail := by
          cases hx : rest ns p with
          | nil =>
            exfalso
            cases ns with
            | nil => cases hp; simp [rest] at hx
            | cons n' ns' =>
              cases hp with
              | cons h1 h2 =>
                rename_i c' cs'
                rw [rest] at hx
                have := congrArg List.length hx
                simp at this
                omega
          | cons a r =>
            have hfirst : a = p := by
              cases ns with
              | nil => cases hp; simp [rest] at hx; exact hx.1
              | cons n' ns' =>
                cases hp with
                | cons h1 h2 =>
                  rename_i c' cs'
                  rw [rest, show n' - c' = (n' - (c' + 1)) + 1 by omega, List.range'_succ] at hx
                  simp at hx
                  exact hx.1.symm
            rw [hfirst]; rfl
        conv_lhs => rw [hz]
        simp [List.range_eq_range']

theorem forLoop_rest {A : Type} (step : List Nat → A → A) (lens : List Nat) : ∀ (fuel : Nat) (pos : List Nat) (acc : A),
    List.Forall₂ (fun c n => c < n) pos lens → (rest lens pos).length ≤ fuel →
    forLoop step lens fuel pos acc = some ((rest lens pos).foldl (fun a p => step p a) acc) := by
  intro fuel
  induction fuel with
  | zero =>
    intro pos acc hv hl
    rw [rest_step hv] at hl
    simp at hl
  | succ n ih =>
    intro pos acc hv hl
    rw [forLoop]
    rw [rest_step hv] at hl ⊢
    cases ha : advance lens pos with
    | none => simp
    | some p =>
      rw [ha] at hl
      simp only [List.length_cons, Nat.add_le_add_iff_right] at hl
      simp only [List.foldl_cons]
      exact ih p _ (advance_valid hv ha) hl

theorem zeros_valid {lens : List Nat} (h : ∀ n ∈ lens, 0 < n) : List.Forall₂ (fun c n => c < n) (lens.map (fun _ => 0)) lens := by
  induction lens with
  | nil => exact .nil
  | cons n r ih => exact .cons (h n List.mem_cons_self) (ih (fun n hn => h n (List.mem_cons_of_mem _ hn)))

theorem rest_zeros {lens : List Nat} (h : ∀ n ∈ lens, 0 < n) : rest lens (lens.map (fun _ => 0)) = visits lens := by
  induction lens with
  | nil => rfl
  | cons n r ih =>
    have hr : ∀ n ∈ r, 0 < n := fun n hn => h n (List.mem_cons_of_mem _ hn)
    rw [List.map_cons, rest, visits, ← ih hr]
    have hs := rest_step (zeros_valid hr)
    rw [hs]
    simp [List.range_eq_range']

/-- the number of combinations -/
def count : List Nat → Nat
  | [] => 1
  | n :: ns => n * count ns

theorem length_visits (lens : List Nat) : (visits lens).length = count lens := by
  induction lens with
  | nil => rfl
  | cons n ns ih =>
    rw [visits, List.length_flatMap, count, ← ih]
    induction visits ns with
    | nil => simp
    | cons a r ih2 => simp [ih2, Nat.mul_add, Nat.add_comm, Nat.mul_comm]

/-- **C43** (the loop): the loop terminates after as many steps as there are combinations, and executes its body
once for each combination, in lexicographic order with the last range as outermost loop. -/
theorem forLoop_combos {A : Type} (step : List Nat → A → A) (lens : List Nat) (h : ∀ n ∈ lens, 0 < n) (fuel : Nat)
    (hf : count lens ≤ fuel) (acc : A) :
    forLoop step lens fuel (lens.map (fun _ => 0)) acc =
      some ((combos lens.reverse).foldl (fun a p => step p.reverse a) acc) := by
  rw [forLoop_rest step lens fuel _ acc (zeros_valid h) (by rw [rest_zeros h, length_visits]; exact hf), rest_zeros h, visits_combos,
    List.foldl_map]

/-! ### the result of the control -/

/-- Specification: the variables visible in the body for the combination `p` (both outermost first): every variable
has the value at its position, and the index variable the index or key. If a name is used twice, the outer loop wins. -/
def bindings (vars : List (Iter E)) (p : List Nat) : List (String × Node E) := forBinding [] vars.reverse p.reverse

/-- the lengths of the ranges, outermost first -/
def lengths (vars : List (Iter E)) : List Nat := vars.map (fun i => (i.items.getD []).length)

/-- Specification: a for control without regular fields, whose value and options are evaluated, with body `body`, map key
template `key` and the variables `vars` (outermost first), none of which has an empty range. -/
structure ForGiven (ctx : CtlCtx F E) (body : Node E) (key : Option (Node E)) (vars : List (Iter E)) : Prop where
  ready : CtlReady ctx
  nofields : ctx.fields = []
  defd : ctx.value.ann.undefined = false
  body : mget ctx.options "do" = some body
  key : (key = none ∧ mget ctx.options "mapkey" = none) ∨ ∃ k n, key = some k ∧ mget ctx.options "mapkey" = some n ∧ n.val = .templ k
  ranges : forRanges ctx.value.val = .ok vars.reverse
  nonempty : ∀ i ∈ vars, ∃ x r, i.items = some (x :: r)

/-- the outcome of a single execution of the loop body -/
def forAll (lib : CtlLib E) (src : String) (body : Node E) (key : Option (Node E)) (vars : List (Iter E)) : ForAcc E :=
  (combos (lengths vars)).foldl (fun a p => forStep lib src body key vars.reverse p.reverse a) {}

theorem flowFor_run (lib : CtlLib E) (ctx : CtlCtx F E) {body : Node E} {key : Option (Node E)} {vars : List (Iter E)}
    (h : ForGiven ctx body key vars) (fuel : Nat) (hf : count (lengths vars).reverse ≤ fuel) :
    flowFor lib fuel ctx = .ok (forResult ctx key.isSome (forAll lib ctx.node.src body key vars)) := by
  rw [flowFor, controlReady_none ctx false (.inr h.nofields) h.ready]
  have hk : forMapKey ctx = .ok key := by
    unfold forMapKey
    rcases h.key with ⟨rfl, hk⟩ | ⟨k, n, rfl, hn, hv⟩
    · rw [hk]
    · rw [hn]; simp only [hv]
  simp only [h.body, h.defd, Bool.false_eq_true, if_false, hk, h.ranges]
  rw [forRun, if_neg]
  · have hl : vars.reverse.map Iter.len = (lengths vars).reverse := by
      rw [lengths, ← List.map_reverse]; rfl
    have hz : vars.reverse.map (fun _ => 0) = ((lengths vars).reverse).map (fun _ => 0) := by
      rw [← hl, List.map_map]; rfl
    rw [hl, hz, forLoop_combos _ _ _ fuel hf, List.reverse_reverse]
    · rfl
    · intro n hn
      rw [List.mem_reverse, lengths, List.mem_map] at hn
      obtain ⟨i, hi, rfl⟩ := hn
      obtain ⟨x, r, hx⟩ := h.nonempty i hi
      rw [hx]; simp
  · simp only [List.any_eq_true, List.mem_reverse, not_exists, not_and]
    intro i hi
    obtain ⟨x, r, hx⟩ := h.nonempty i hi
    rw [hx]; simp

/-- Specification: the outcome of a template evaluation is a value (possibly undefined). -/
def Evaluated (r : Val E × Info × Bool) : Prop := r.2.2 = true ∧ r.1.isExpr = false

theorem forStep_list (lib : CtlLib E) (src : String) (body t : Node E) (hb : body.val = .templ t) (vars : List (Iter E)) (p : List Nat)
    (a : ForAcc E) (h : Evaluated (lib.subst t (bindings vars p))) :
    forStep lib src body none vars.reverse p.reverse a =
      { a with list := a.list ++ (if (lib.subst t (bindings vars p)).2.1.undefined then [] else [Node.new (lib.subst t (bindings vars p)).1 src]) } := by
  simp only [forStep, forBody, hb]
  unfold bindings at h ⊢
  simp only [forTemplate, h.1, h.2, Bool.not_true, Bool.false_eq_true, if_false, Bool.not_false, Bool.true_and]
  cases (lib.subst t (forBinding [] vars.reverse p.reverse)).2.1.undefined <;> simp [forStore]

theorem foldl_list (lib : CtlLib E) (src : String) (body t : Node E) (hb : body.val = .templ t) (vars : List (Iter E)) (ps : List (List Nat)) :
    ∀ (a : ForAcc E), (∀ p ∈ ps, Evaluated (lib.subst t (bindings vars p))) →
    ps.foldl (fun a p => forStep lib src body none vars.reverse p.reverse a) a =
      { a with list := a.list ++ ps.flatMap (fun p => if (lib.subst t (bindings vars p)).2.1.undefined then []
          else [Node.new (lib.subst t (bindings vars p)).1 src]) } := by
  induction ps with
  | nil => intro a _; simp
  | cons p r ih =>
    intro a h
    rw [List.foldl_cons, forStep_list lib src body t hb vars p a (h p List.mem_cons_self), ih _ (fun p hp => h p (List.mem_cons_of_mem _ hp))]
    simp

/-- **C43** (for, list result): if the body can be evaluated for all combinations, the result is the list of its defined values
for all combinations of the ranges in lexicographic order. -/
theorem for_list (lib : CtlLib E) (ctx : CtlCtx F E) (body t : Node E) (vars : List (Iter E)) (h : ForGiven ctx body none vars)
    (hb : body.val = .templ t) (heval : ∀ p ∈ combos (lengths vars), Evaluated (lib.subst t (bindings vars p)))
    (fuel : Nat) (hf : count (lengths vars).reverse ≤ fuel) :
    ∃ n, flowFor lib fuel ctx = .ok (n, true) ∧ n.val = .list ((combos (lengths vars)).flatMap (fun p =>
      if (lib.subst t (bindings vars p)).2.1.undefined then [] else [Node.new (lib.subst t (bindings vars p)).1 ctx.node.src])) := by
  rw [flowFor_run lib ctx h fuel hf]
  unfold forAll
  rw [foldl_list lib _ body t hb vars _ {} heval]
  exact ⟨_, rfl, by simp [Node.new, Node.val]⟩

/-- the body fails or is not completely evaluated: then `done` is cleared, for ever -/
theorem forStep_done_mono (lib : CtlLib E) (src : String) (body : Node E) (key : Option (Node E)) (rs : List (Iter E)) (p : List Nat)
    (a : ForAcc E) (h : a.done = false) : (forStep lib src body key rs p a).done = false := by
  have hstore : ∀ (mk : Bool) (k : String) (n : Node E) (a : ForAcc E), (forStore mk k n a).done = a.done := by
    intro mk k n a; unfold forStore; cases mk <;> rfl
  have hbody : ∀ inp mk skip k (a : ForAcc E), a.done = false → (forBody lib src body inp mk skip k a).done = false := by
    intro inp mk skip k a ha
    unfold forBody
    split
    · unfold forTemplate
      split
      · rfl
      split
      · rfl
      split
      · rw [hstore]; exact ha
      · exact ha
    · rw [hstore]; exact ha
  unfold forStep
  split
  · exact hbody _ _ _ _ _ h
  · apply hbody
    unfold forKey
    simp only
    split
    · split
      · rfl
      · exact h
    · split
      · split
        · rfl
        · exact h
      · rfl

theorem foldl_done_mono (lib : CtlLib E) (src : String) (body : Node E) (key : Option (Node E)) (rs : List (Iter E)) (ps : List (List Nat)) :
    ∀ (a : ForAcc E), a.done = false → (ps.foldl (fun a p => forStep lib src body key rs p.reverse a) a).done = false := by
  induction ps with
  | nil => intro a h; exact h
  | cons p r ih => intro a h; exact ih _ (forStep_done_mono lib src body key rs _ a h)

/-- **C43**: if the body cannot be evaluated for one of the combinations, the control is not done. -/
theorem for_not_done (lib : CtlLib E) (ctx : CtlCtx F E) (body t : Node E) (key : Option (Node E)) (vars : List (Iter E))
    (h : ForGiven ctx body key vars)
    (hb : body.val = .templ t) (p : List Nat) (hp : p ∈ combos (lengths vars)) (hne : ¬ Evaluated (lib.subst t (bindings vars p)))
    (fuel : Nat) (hf : count (lengths vars).reverse ≤ fuel) :
    ∃ n, flowFor lib fuel ctx = .ok (n, false) := by
  rw [flowFor_run lib ctx h fuel hf]
  have hd : (forAll lib ctx.node.src body key vars).done = false := by
    unfold forAll
    obtain ⟨l1, l2, hl⟩ := List.append_of_mem hp
    rw [hl, List.foldl_append, List.foldl_cons]
    apply foldl_done_mono
    generalize List.foldl (fun a p => forStep lib ctx.node.src body key vars.reverse p.reverse a) {} l1 = a
    have hbody : ∀ mk skip k (a : ForAcc E), (forBody lib ctx.node.src body (bindings vars p) mk skip k a).done = false := by
      intro mk skip k a
      simp only [forBody, hb, forTemplate]
      split
      · rfl
      · next h1 =>
        split
        · rfl
        · next h2 =>
          exfalso
          exact hne ⟨by simpa using h1, by simpa using h2⟩
    unfold forStep
    split
    · exact hbody _ _ _ _
    · exact hbody _ _ _ _
  unfold forResult
  simp only [hd, Bool.not_false, if_true]
  split
  · exact ⟨_, rfl⟩
  · exact ⟨_, rfl⟩

/-- Specification: what one combination contributes to the map: a key and a value -/
def ForEntry (lib : CtlLib E) (src : String) (t kt : Node E) (vars : List (Iter E)) (p : List Nat) : Option (String × Node E) :=
  if (lib.subst kt (bindings vars p)).2.1.undefined || (lib.subst t (bindings vars p)).2.1.undefined then none
  else match (lib.subst kt (bindings vars p)).1 with
    | .str k => some (k, Node.new (lib.subst t (bindings vars p)).1 src)
    | _ => none

/-- Specification: the key could be evaluated: it is undefined, nil or a string. -/
def KeyEvaluated (r : Val E × Info × Bool) : Prop :=
  r.2.2 = true ∧ (r.2.1.undefined = true ∨ r.1 = .nil ∨ ∃ s, r.1 = .str s)

theorem forStep_map (lib : CtlLib E) (src : String) (body t kt : Node E) (hb : body.val = .templ t) (vars : List (Iter E)) (p : List Nat)
    (a : ForAcc E) (h : Evaluated (lib.subst t (bindings vars p))) (hk : KeyEvaluated (lib.subst kt (bindings vars p))) :
    forStep lib src body (some kt) vars.reverse p.reverse a =
      { a with map := match ForEntry lib src t kt vars p with | some e => mset a.map e.1 e.2 | none => a.map } := by
  unfold ForEntry
  simp only [forStep, forBody, hb]
  unfold bindings at h hk ⊢
  generalize lib.subst t (forBinding [] vars.reverse p.reverse) = r at h ⊢
  generalize lib.subst kt (forBinding [] vars.reverse p.reverse) = s at hk ⊢
  obtain ⟨v, i, ok⟩ := r
  obtain ⟨kv, ki, kok⟩ := s
  obtain ⟨h1, h2⟩ := h
  obtain ⟨hk1, hk2⟩ := hk
  simp only at h1 h2 hk1 hk2
  subst h1 hk1
  simp only [forTemplate, h2, Bool.not_true, Bool.false_eq_true, if_false, forKey]
  cases hu : ki.undefined with
  | true => simp
  | false =>
    simp only [hu, Bool.false_eq_true, false_or] at hk2
    rcases hk2 with rfl | ⟨s, rfl⟩
    · cases hi : i.undefined <;> simp [Val.isNil]
    · cases hi : i.undefined <;> simp [Val.isNil, forStore]

theorem foldl_map (lib : CtlLib E) (src : String) (body t kt : Node E) (hb : body.val = .templ t) (vars : List (Iter E)) (ps : List (List Nat)) :
    ∀ (a : ForAcc E), (∀ p ∈ ps, Evaluated (lib.subst t (bindings vars p))) → (∀ p ∈ ps, KeyEvaluated (lib.subst kt (bindings vars p))) →
    ps.foldl (fun a p => forStep lib src body (some kt) vars.reverse p.reverse a) a =
      { a with map := (ps.filterMap (ForEntry lib src t kt vars)).foldl (fun m e => mset m e.1 e.2) a.map } := by
  induction ps with
  | nil => intro a _ _; simp
  | cons p r ih =>
    intro a h hk
    rw [List.foldl_cons, forStep_map lib src body t kt hb vars p a (h p List.mem_cons_self) (hk p List.mem_cons_self),
      ih _ (fun p hp => h p (List.mem_cons_of_mem _ hp)) (fun p hp => hk p (List.mem_cons_of_mem _ hp))]
    cases he : ForEntry lib src t kt vars p <;> simp [List.filterMap_cons, he]

/-- the last entry with the key -/
def lastEntry (es : List (String × Node E)) (k : String) : Option (Node E) :=
  (es.reverse.find? (fun e => decide (e.1 = k))).map Prod.snd

theorem mget_foldl_mset (es : List (String × Node E)) (m : List (String × Node E)) (k : String) :
    mget (es.foldl (fun m e => mset m e.1 e.2) m) k = (lastEntry es k).or (mget m k) := by
  unfold lastEntry
  induction es generalizing m with
  | nil => simp
  | cons e r ih =>
    rw [List.foldl_cons, ih, List.reverse_cons, List.find?_append]
    cases hr : List.find? (fun e => decide (e.1 = k)) r.reverse with
    | some x => simp
    | none =>
      simp only [Option.map_none, Option.none_or, List.find?_singleton]
      rw [mget_mset]
      by_cases hk : e.1 = k
      · simp [hk]
      · have : ¬ k = e.1 := fun h => hk h.symm
        simp [hk, this]

/-- **C43** (for, map result): with a map key, the value of a key is the one of the last combination (in
lexicographic order) that yields this key; combinations with an undefined or nil key or an undefined value are skipped. -/
theorem for_map (lib : CtlLib E) (ctx : CtlCtx F E) (body t kt : Node E) (vars : List (Iter E)) (h : ForGiven ctx body (some kt) vars)
    (hb : body.val = .templ t) (heval : ∀ p ∈ combos (lengths vars), Evaluated (lib.subst t (bindings vars p)))
    (hkey : ∀ p ∈ combos (lengths vars), KeyEvaluated (lib.subst kt (bindings vars p)))
    (fuel : Nat) (hf : count (lengths vars).reverse ≤ fuel) :
    ∃ n m, flowFor lib fuel ctx = .ok (n, true) ∧ n.val = .map m ∧
      ∀ k, mget m k = lastEntry ((combos (lengths vars)).filterMap (ForEntry lib ctx.node.src t kt vars)) k := by
  rw [flowFor_run lib ctx h fuel hf]
  unfold forAll
  rw [foldl_map lib _ body t kt hb vars _ {} heval hkey]
  exact ⟨_, _, rfl, rfl, fun k => by rw [mget_foldl_mset]; simp [mget]⟩

/-- C43: a body which is no template (a constant) is repeated for every combination. -/
theorem for_constant (lib : CtlLib E) (ctx : CtlCtx F E) (body : Node E) (vars : List (Iter E)) (h : ForGiven ctx body none vars)
    (hb : ∀ t, body.val ≠ .templ t) (fuel : Nat) (hf : count (lengths vars).reverse ≤ fuel) :
    ∃ n, flowFor lib fuel ctx = .ok (n, true) ∧ n.val = .list ((combos (lengths vars)).map (fun _ => body)) := by
  rw [flowFor_run lib ctx h fuel hf]
  have hstep : ∀ p (a : ForAcc E), forStep lib ctx.node.src body none vars.reverse p a = { a with list := a.list ++ [body] } := by
    intro p a
    simp only [forStep, forBody]
    cases hv : body.val with
    | templ t => exact absurd hv (hb t)
    | _ => rfl
  have hfold : ∀ (ps : List (List Nat)) (a : ForAcc E), ps.foldl (fun a p => forStep lib ctx.node.src body none vars.reverse p.reverse a) a =
      { a with list := a.list ++ ps.map (fun _ => body) } := by
    intro ps
    induction ps with
    | nil => intro a; simp
    | cons p r ih => intro a; rw [List.foldl_cons, hstep, ih]; simp
  unfold forAll
  rw [hfold]
  exact ⟨_, rfl, by simp [Node.new, Node.val]⟩

/-- C43: a control without any variable executes its body once. -/
theorem combos_none : combos [] = [[]] := rfl

/-- C43: an empty range does not lead to an empty result: the program crashes. -/
theorem for_empty_range (lib : CtlLib E) (ctx : CtlCtx F E) (body : Node E) (rs : List (Iter E)) (fuel : Nat)
    (h1 : CtlReady ctx) (h2 : ctx.fields = []) (h3 : ctx.value.ann.undefined = false) (h4 : mget ctx.options "do" = some body)
    (h5 : mget ctx.options "mapkey" = none) (h6 : forRanges ctx.value.val = .ok rs) (h7 : ∃ i ∈ rs, i.items = none) :
    flowFor lib fuel ctx = .error .panic := by
  rw [flowFor, controlReady_none ctx false (.inr h2) h1]
  simp only [h4, h3, Bool.false_eq_true, if_false, forMapKey, h5, h6, forRun]
  rw [if_pos]
  obtain ⟨i, hi, hn⟩ := h7
  rw [List.any_eq_true]
  exact ⟨i, hi, by rw [hn]; rfl⟩

/-- **C43** (errors): regular fields, a missing body, and malformed variables are errors; an undefined value yields nothing; while something is
unresolved the control map is kept. -/
theorem for_errors (lib : CtlLib E) (ctx : CtlCtx F E) (fuel : Nat) :
    (ctx.fields ≠ [] → ∃ r, flowFor lib fuel ctx = .ok r ∧ IsIssue r) ∧
    (ctx.fields = [] → ¬ CtlReady ctx → flowFor lib fuel ctx = .ok (ctx.node, false)) ∧
    (ctx.fields = [] → CtlReady ctx → mget ctx.options "do" = none → ∃ r, flowFor lib fuel ctx = .ok r ∧ IsIssue r) ∧
    (ctx.fields = [] → CtlReady ctx → (mget ctx.options "do").isSome = true →
      (ctx.value.ann.undefined = true → ∃ r, flowFor lib fuel ctx = .ok r ∧ Yields none r) ∧
      (ctx.value.ann.undefined = false → (∃ e, forRanges ctx.value.val = .error e) → ∃ r, flowFor lib fuel ctx = .ok r ∧ IsIssue r)) := by
  refine ⟨?_, ?_, ?_, ?_⟩
  · intro hf
    obtain ⟨r, hr, hi⟩ := controlReady_fields ctx hf
    rw [flowFor, hr]; exact ⟨r, rfl, hi⟩
  · intro hf h; rw [flowFor, controlReady_wait ctx false (.inr hf) h]
  · intro hf h hb
    rw [flowFor, controlReady_none ctx false (.inr hf) h]
    simp only [hb]
    exact ⟨_, rfl, controlIssue_isIssue _ _⟩
  · intro hf h hb
    obtain ⟨body, hb⟩ := Option.isSome_iff_exists.1 hb
    rw [flowFor, controlReady_none ctx false (.inr hf) h]
    simp only [hb]
    constructor
    · intro hu; rw [if_pos hu]; exact ⟨_, rfl, rfl, rfl, rfl⟩
    · rintro hu ⟨e, he⟩
      simp only [hu, Bool.false_eq_true, if_false, he]
      split
      · exact ⟨_, rfl, controlIssue_isIssue _ _⟩
      · exact ⟨_, rfl, controlIssue_isIssue _ _⟩

/-! ### variables and ranges -/

theorem forBinding_other (rs : List (Iter E)) : ∀ (cs : List Nat) (acc : List (String × Node E)) (k : String),
    (∀ i ∈ rs, i.name ≠ k ∧ i.index ≠ k) → mget (forBinding acc rs cs) k = mget acc k := by
  induction rs with
  | nil => intro cs acc k _; simp [forBinding]
  | cons i r ih =>
    intro cs acc k h
    cases cs with
    | nil => simp [forBinding]
    | cons c cs =>
      rw [forBinding, ih _ _ _ (fun i hi => h i (List.mem_cons_of_mem _ hi))]
      obtain ⟨h1, h2⟩ := h i List.mem_cons_self
      rw [mget_mset_ne _ _ (Ne.symm h2), mget_mset_ne _ _ (Ne.symm h1)]

theorem forBinding_mem (rs : List (Iter E)) : ∀ (cs : List Nat) (acc : List (String × Node E)),
    (rs.flatMap (fun i => [i.name, i.index])).Nodup → ∀ e ∈ rs.zip cs,
      mget (forBinding acc rs cs) e.1.name = some (e.1.at e.2).2 ∧
      mget (forBinding acc rs cs) e.1.index = some (Node.new (e.1.at e.2).1 "for") := by
  induction rs with
  | nil => intro cs acc _ e he; simp at he
  | cons i r ih =>
    intro cs acc hd e he
    cases cs with
    | nil => simp at he
    | cons c cs =>
      rw [List.flatMap_cons, List.nodup_append] at hd
      obtain ⟨h1, h2, h3⟩ := hd
      rw [List.zip_cons_cons, List.mem_cons] at he
      rw [forBinding]
      rcases he with rfl | he
      · have hne : ∀ j ∈ r, ∀ k ∈ [i.name, i.index], j.name ≠ k ∧ j.index ≠ k := by
          intro j hj k hk
          constructor
          · intro hjk
            exact h3 k hk j.name (List.mem_flatMap.2 ⟨j, hj, by simp⟩) hjk.symm
          · intro hjk
            exact h3 k hk j.index (List.mem_flatMap.2 ⟨j, hj, by simp⟩) hjk.symm
        have hii : i.name ≠ i.index := by
          simp only [List.nodup_cons, List.mem_singleton] at h1
          exact h1.1
        rw [forBinding_other _ _ _ _ (fun j hj => hne j hj i.name (by simp)),
          forBinding_other _ _ _ _ (fun j hj => hne j hj i.index (by simp))]
        constructor
        · rw [mget_mset_ne _ _ hii, mget_mset_self]
        · rw [mget_mset_self]
      · exact ih cs _ h2 e he

/-- **C43** (variables): with distinct names, the body sees for the combination `p` the value at position `p i` of the `i`-th range as its variable, and
the index (list) or key (map) as its index variable. -/
theorem for_variables (vars : List (Iter E)) (p : List Nat) (hd : (vars.flatMap (fun i => [i.name, i.index])).Nodup)
    (hp : p ∈ combos (lengths vars)) (j : Nat) (v : Iter E) (hv : vars[j]? = some v) :
    ∃ c x, p[j]? = some c ∧ (v.items.getD [])[c]? = some x ∧
      mget (bindings vars p) v.name = some x.2 ∧ mget (bindings vars p) v.index = some (Node.new x.1 "for") := by
  have hlt := (mem_combos _ _).1 hp
  have hlen : p.length = vars.length := by rw [hlt.length_eq, lengths, List.length_map]
  have hj : j < vars.length := by
    rw [List.getElem?_eq_some_iff] at hv; exact hv.1
  have hjp : j < p.length := by omega
  have hvj : vars[j] = v := by
    rw [List.getElem?_eq_getElem hj] at hv; simpa using hv
  have hc : p[j] < (v.items.getD []).length := by
    have := (List.forall₂_iff_get.1 hlt).2 j hjp (by rw [lengths, List.length_map]; exact hj)
    simp only [List.get_eq_getElem, lengths, List.getElem_map, hvj] at this
    exact this
  refine ⟨p[j], (v.items.getD [])[p[j]], by simp [hjp], by simp [hc], ?_⟩
  have hmem : (v, p[j]) ∈ vars.reverse.zip p.reverse := by
    have hz : vars.reverse.zip p.reverse = (vars.zip p).reverse := by
      rw [List.zip_eq_zipWith, List.zip_eq_zipWith, List.reverse_zipWith (by omega)]
    rw [hz, List.mem_reverse, List.mem_iff_getElem]
    refine ⟨j, by simp only [List.length_zip]; omega, ?_⟩
    simp [hvj]
  have hd' : (vars.reverse.flatMap (fun i => [i.name, i.index])).Nodup :=
    ((List.reverse_perm vars).flatMap_right _).nodup_iff.2 hd
  have := forBinding_mem vars.reverse p.reverse [] hd' _ hmem
  unfold bindings
  simpa [Iter.at, hc] using this

theorem listItems_getElem? (l : List (Node E)) : ∀ (i j : Nat), (listItems i l)[j]? = (l[j]?).map (fun n => (.int ((i + j : Nat) : Int), n)) := by
  induction l with
  | nil => intro i j; simp [listItems]
  | cons n r ih =>
    intro i j
    cases j with
    | zero => simp [listItems]
    | succ j => simp only [listItems, List.getElem?_cons_succ, ih]; congr 2; funext n; congr 3; omega

/-- **C43** (ranges): a list is iterated in order, with its indices; a map in the order of its sorted keys; empty ranges yield no iterator; other
values are errors. -/
theorem for_range (v : Node E) :
    (∀ l, v.val = .list l → l ≠ [] → ∃ items, controlIterator v = .ok (some items) ∧
      ∀ j : Nat, items[j]? = (l[j]?).map (fun n => (Val.int (j : Int), n))) ∧
    (∀ m, v.val = .map m → m ≠ [] → MapOK m → ∃ (items : List (Val E × Node E)) (ks : List String), controlIterator v = .ok (some items) ∧ items.map Prod.fst = ks.map Val.str ∧
      ks.Pairwise (· ≤ ·) ∧ ks.Nodup ∧ (∀ k n, (.str k, n) ∈ items ↔ mget m k = some n)) ∧
    (v.val = .list [] ∨ v.val = .map [] → controlIterator v = .ok none) ∧
    ((∀ l, v.val ≠ .list l) → (∀ m, v.val ≠ .map m) → ∃ e, controlIterator v = .error e) := by
  refine ⟨?_, ?_, ?_, ?_⟩
  · intro l hv hl
    refine ⟨listItems 0 l, ?_, ?_⟩
    · simp [controlIterator, hv, hl]
    · intro j; rw [listItems_getElem?]; simp
  · intro m hv hm hok
    refine ⟨mapItems m, sortedKeys m, ?_, ?_, sortStr_sorted _, (sortStr_perm _).nodup_iff.2 hok, ?_⟩
    · simp [controlIterator, hv, hm]
    · simp [mapItems, Function.comp_def]
    · intro k n
      simp only [mapItems, List.mem_map, Prod.mk.injEq, Val.str.injEq]
      constructor
      · rintro ⟨k', hk', rfl, hn⟩
        rw [sortedKeys, (sortStr_perm _).mem_iff] at hk'
        cases hg : mget m k' with
        | none => exact absurd hk' (mget_none_iff.1 hg)
        | some x => rw [hg] at hn; simp at hn; rw [hn]
      · intro hg
        refine ⟨k, ?_, rfl, by rw [hg]; rfl⟩
        rw [sortedKeys, (sortStr_perm _).mem_iff]
        by_contra hne
        rw [mget_none_iff.2 hne] at hg
        simp at hg
  · rintro (hv | hv) <;> simp [controlIterator, hv]
  · intro h1 h2
    unfold controlIterator
    cases hv : v.val with
    | list l => exact absurd hv (h1 l)
    | map m => exact absurd hv (h2 m)
    | _ => exact ⟨_, rfl⟩

theorem mapVarsFor_ok {m : List (String × Node E)} {l : List (Iter E)} :
    mapVarsFor m = .ok l ↔ List.Forall₂ (fun e i => mapVar e.1 e.2 = .ok i) m l := by
  induction m generalizing l with
  | nil =>
    simp only [mapVarsFor, Except.ok.injEq, List.forall₂_nil_left_iff]
    exact eq_comm
  | cons e r ih =>
    obtain ⟨k, v⟩ := e
    rw [mapVarsFor]
    constructor
    · intro h
      cases hv : mapVar k v with
      | error x => rw [hv] at h; simp at h
      | ok i =>
        rw [hv] at h
        simp only at h
        cases hr : mapVarsFor r with
        | error x => rw [hr] at h; simp at h
        | ok l' =>
          rw [hr] at h
          simp only [Except.ok.injEq] at h
          subst h
          exact .cons hv (ih.1 hr)
    · intro h
      cases h with
      | cons hv hr =>
        simp only at hv
        rw [hv, ih.2 hr]

theorem listVarsFor_ok {m : List (Node E)} {l : List (Iter E)} :
    listVarsFor m = .ok l ↔ List.Forall₂ (fun e i => listVar e = .ok i) m l := by
  induction m generalizing l with
  | nil =>
    simp only [listVarsFor, Except.ok.injEq, List.forall₂_nil_left_iff]
    exact eq_comm
  | cons v r ih =>
    rw [listVarsFor]
    constructor
    · intro h
      cases hv : listVar v with
      | error x => rw [hv] at h; simp at h
      | ok i =>
        rw [hv] at h
        simp only at h
        cases hr : listVarsFor r with
        | error x => rw [hr] at h; simp at h
        | ok l' =>
          rw [hr] at h
          simp only [Except.ok.injEq] at h
          subst h
          exact .cons hv (ih.1 hr)
    · intro h
      cases h with
      | cons hv hr => rw [hv, ih.2 hr]

theorem insertIter_perm (a : Iter E) (l : List (Iter E)) : (insertIter a l).Perm (a :: l) := by
  induction l with
  | nil => exact List.Perm.refl _
  | cons b r ih =>
    rw [insertIter]
    split
    · exact (ih.cons b).trans (List.Perm.swap a b r)
    · exact List.Perm.refl _

theorem sortIters_perm (l : List (Iter E)) : (sortIters l).Perm l := by
  induction l with
  | nil => exact List.Perm.refl _
  | cons a r ih => exact (insertIter_perm a _).trans (ih.cons a)

theorem less_name {a b : Iter E} (h : a.less b = true) : b.name ≤ a.name := by
  unfold Iter.less at h
  split at h
  · rcases String.le_total b.name a.name with h' | h'
    · exact h'
    · exact absurd (by simpa using h : b.name < a.name) (String.not_lt.2 h')
  · next hn => rw [ne_eq, Decidable.not_not] at hn; rw [hn]; exact String.le_refl _

theorem not_less_name {a b : Iter E} (h : a.less b = false) : a.name ≤ b.name := by
  unfold Iter.less at h
  split at h
  · simpa using h
  · next hn => rw [ne_eq, Decidable.not_not] at hn; rw [hn]; exact String.le_refl _

theorem insertIter_sorted (a : Iter E) (l : List (Iter E)) (h : l.Pairwise (fun x y => y.name ≤ x.name)) :
    (insertIter a l).Pairwise (fun x y => y.name ≤ x.name) := by
  induction l with
  | nil => simp [insertIter]
  | cons b r ih =>
    rw [List.pairwise_cons] at h
    rw [insertIter]
    split
    · next hb =>
      rw [List.pairwise_cons]
      refine ⟨?_, ih h.2⟩
      intro c hc
      rcases List.mem_cons.1 ((insertIter_perm a r).mem_iff.1 hc) with rfl | hc
      · exact less_name hb
      · exact h.1 c hc
    · next hb =>
      have hba : b.name ≤ a.name := not_less_name (by simpa using hb)
      rw [List.pairwise_cons]
      refine ⟨?_, List.pairwise_cons.2 h⟩
      intro c hc
      rcases List.mem_cons.1 hc with rfl | hc
      · exact hba
      · exact String.le_trans (h.1 c hc) hba

theorem sortIters_sorted (l : List (Iter E)) : (sortIters l).Pairwise (fun x y => y.name ≤ x.name) := by
  induction l with
  | nil => simp [sortIters]
  | cons a r ih => exact insertIter_sorted a _ ih

/-- **C43** (order of the loops): for a list of variables, the first one is the outermost loop; for a map of variables, the
loops are nested in ascending order of the variable names. -/
theorem for_loop_order (v : Val E) (vars : List (Iter E)) (h : forRanges v = .ok vars.reverse) :
    (∀ l, v = .list l → List.Forall₂ (fun e i => listVar e = .ok i) l vars) ∧
    (∀ m, v = .map m → vars.Pairwise (fun x y => x.name ≤ y.name) ∧
      ∃ vs, vs.Perm vars ∧ List.Forall₂ (fun e i => mapVar e.1 e.2 = .ok i) m vs) := by
  constructor
  · rintro l rfl
    simp only [forRanges] at h
    cases hl : listVarsFor l with
    | error e => rw [hl] at h; simp at h
    | ok vs =>
      rw [hl] at h
      simp only [Except.ok.injEq, List.reverse_inj] at h
      subst h
      exact listVarsFor_ok.1 hl
  · rintro m rfl
    simp only [forRanges] at h
    cases hl : mapVarsFor m with
    | error e => rw [hl] at h; simp at h
    | ok vs =>
      rw [hl] at h
      simp only [Except.ok.injEq] at h
      have hv : vars = (sortIters vs).reverse := by rw [h, List.reverse_reverse]
      subst hv
      refine ⟨?_, vs, ?_, mapVarsFor_ok.1 hl⟩
      · rw [List.pairwise_reverse]; exact sortIters_sorted vs
      · exact ((List.reverse_perm _).trans (sortIters_perm vs)).symm

theorem nodup_map_inj {α β : Type} {f : α → β} {l : List α} (hd : (l.map f).Nodup) {a b : α} (ha : a ∈ l) (hb : b ∈ l) (h : f a = f b) : a = b := by
  induction l with
  | nil => simp at ha
  | cons x r ih =>
    rw [List.map_cons, List.nodup_cons] at hd
    rcases List.mem_cons.1 ha with ha1 | ha1
    · rcases List.mem_cons.1 hb with hb1 | hb1
      · rw [ha1, hb1]
      · exact absurd (List.mem_map.2 ⟨b, hb1, by rw [← h, ha1]⟩) hd.1
    · rcases List.mem_cons.1 hb with hb1 | hb1
      · exact absurd (List.mem_map.2 ⟨a, ha1, by rw [h, hb1]⟩) hd.1
      · exact ih hd.2 ha1 hb1

theorem forall2_perm {α β : Type} {R : α → β → Prop} {l l' : List α} (hp : l.Perm l') :
    ∀ {r : List β}, List.Forall₂ R l r → ∃ r', r.Perm r' ∧ List.Forall₂ R l' r' := by
  induction hp with
  | nil => intro r h; exact ⟨r, .refl _, h⟩
  | cons a _ ih =>
    intro r h
    cases h with
    | cons hr hrest =>
      obtain ⟨r', hp', hf⟩ := ih hrest
      exact ⟨_, hp'.cons _, .cons hr hf⟩
  | swap a b l =>
    intro r h
    cases h with
    | cons h1 hrest =>
      cases hrest with
      | cons h2 h3 => exact ⟨_, List.Perm.swap _ _ _, .cons h2 (.cons h1 h3)⟩
  | trans _ _ ih1 ih2 =>
    intro r h
    obtain ⟨r1, p1, f1⟩ := ih1 h
    obtain ⟨r2, p2, f2⟩ := ih2 f1
    exact ⟨r2, p1.trans p2, f2⟩

/-- **C43** (determinism): the loops do not depend on the iteration order of the map that defines the variables, if the variable names are distinct. -/
theorem for_order_independent (m m' : List (String × Node E)) (hp : m.Perm m') (vars : List (Iter E)) (h : forRanges (.map m) = .ok vars)
    (hd : (vars.map Iter.name).Nodup) : forRanges (.map m') = .ok vars := by
  simp only [forRanges] at h ⊢
  cases hl : mapVarsFor m with
  | error e => rw [hl] at h; simp at h
  | ok vs =>
    rw [hl] at h
    simp only [Except.ok.injEq] at h
    obtain ⟨vs', hvp, hf⟩ := forall2_perm hp (mapVarsFor_ok.1 hl)
    rw [mapVarsFor_ok.2 hf]
    simp only [Except.ok.injEq]
    subst h
    have hperm : (sortIters vs').Perm (sortIters vs) := (sortIters_perm vs').trans (hvp.symm.trans (sortIters_perm vs).symm)
    refine hperm.eq_of_pairwise ?_ (sortIters_sorted vs') (sortIters_sorted vs)
    intro a b ha hb h1 h2
    have hn : a.name = b.name := String.le_antisymm h2 h1
    have ha' := hperm.mem_iff.1 ha
    exact nodup_map_inj hd ha' hb hn

/-- **C43** (variable names): the key of a variable is its name, or index and name separated by a comma, with surrounding space removed; more than one
comma is an error. -/
theorem for_variable_key (k : String) :
    (',' ∉ k.toList → varSpec k = some ("", String.ofList (trimSpace k.toList))) ∧
    (∀ i n : List Char, k.toList = i ++ ',' :: n → ',' ∉ i → ',' ∉ n →
      varSpec k = some (String.ofList (trimSpace i), String.ofList (trimSpace n))) ∧
    (∀ a b c : List Char, k.toList = a ++ ',' :: b ++ ',' :: c → varSpec k = none) := by
  have hone : ∀ s : List Char, ',' ∉ s → splitCh ',' s = [s] := by
    intro s hs
    have := splitCh_append hs []
    simpa [splitCh, addHead] using this
  refine ⟨?_, ?_, ?_⟩
  · intro h; rw [varSpec, hone _ h]
  · intro i n hk hi hn
    rw [varSpec, hk, splitCh_sep hi, hone _ hn]
  · intro a b c hk
    have hlen : ∀ x : List Char, (splitCh ',' x).length = x.count ',' + 1 := by
      intro x
      induction x with
      | nil => simp [splitCh]
      | cons d r ih =>
        rw [splitCh]
        split
        · next h => rw [List.length_cons, ih, h]; simp
        · next h =>
          cases hr : splitCh ',' r with
          | nil => exact absurd hr (splitCh_ne_nil _ _)
          | cons p ps =>
            rw [hr] at ih
            simp only [List.length_cons] at ih ⊢
            rw [List.count_cons_of_ne (by simpa using h)]
            exact ih
    have h3 : 3 ≤ (splitCh ',' k.toList).length := by
      rw [hlen, hk]
      simp only [List.count_append, List.count_cons_self]
      omega
    unfold varSpec
    split
    · next h => rw [h] at h3; simp at h3
    · next h => rw [h] at h3; simp at h3
    · rfl

/-! ### examples -/

/-- `{<<for: {b: [1, 2], a: [5, 6]}, <<do: template}`; the template yields `[a, b]` -/
def exForVal : Val Unit := .map [("b", Node.new (.list [Node.new (.int 1) "", Node.new (.int 2) ""]) ""),
  ("a", Node.new (.list [Node.new (.int 5) "", Node.new (.int 6) ""]) "")]
def exForCtx (v : Val Unit) (opts : List (String × Node Unit)) : CtlCtx CtlFn Unit :=
  ⟨⟨"for", [("do", true), ("mapkey", true)], .cFor⟩, Node.new v "", Node.new (.map []) "", [], opts⟩
def exForLib : CtlLib Unit where
  call := fun _ _ => .fail
  subst := fun t b => match t.val with
    | .str k => (match mget b k with | some n => n.val | none => .nil, {}, true)
    | _ => (.list (b.filterMap (fun e => if e.1.length = 1 then some e.2 else none)), {}, true)

/-- the numbers in a list of lists -/
def numsOf : Val Unit → List (List Int)
  | .list l => l.map (fun n => match n.val with
    | .list k => k.map (fun x => match x.val with | .int i => i | _ => -1)
    | _ => [])
  | _ => []

/-- `a` is the outer loop (the body collects the inner variable first) -/
example : (match flowFor exForLib 4 (exForCtx exForVal [("do", Node.new (.templ (Node.new .nil "")) "")]) with
    | .ok (n, true) => numsOf n.val == [[1, 5], [2, 5], [1, 6], [2, 6]]
    | _ => false) = true := by decide +kernel

/-- C43: a nil key skips the combination if the body is a template, but not if it is a constant: then an entry with the empty key is added. -/
theorem for_constant_nil_key : (match flowFor exForLib 4 (exForCtx exForVal
      [("do", Node.new (.int 7) ""), ("mapkey", Node.new (.templ (Node.new (.str "undefined") "")) "")]) with
    | .ok (n, true) => (match n.val with | .map m => (mget m "").isSome && m.length == 1 | _ => false)
    | _ => false) = true ∧
  (match flowFor exForLib 4 (exForCtx exForVal
      [("do", Node.new (.templ (Node.new .nil "")) ""), ("mapkey", Node.new (.templ (Node.new (.str "undefined") "")) "")]) with
    | .ok (n, true) => (match n.val with | .map m => m.isEmpty | _ => false)
    | _ => false) = true := by
  constructor <;> decide +kernel

/-- the hypotheses of `for_list` are met by the example -/
example : ∃ vars, ForGiven (exForCtx exForVal [("do", Node.new (.templ (Node.new .nil "")) "")])
    (Node.new (.templ (Node.new .nil "")) "") none vars ∧ lengths vars = [2, 2] := by
  cases hr : forRanges exForVal with
  | error e =>
    have : (match forRanges exForVal with | .ok _ => true | _ => false) = true := by decide +kernel
    rw [hr] at this; simp at this
  | ok l =>
    have h1 : (match forRanges exForVal with
      | .ok l => l.all (fun i => match i.items with | some (_ :: _) => true | _ => false) && decide (lengths l.reverse = [2, 2])
      | _ => false) = true := by decide +kernel
    rw [hr] at h1
    simp only [Bool.and_eq_true, List.all_eq_true, decide_eq_true_eq] at h1
    refine ⟨l.reverse, ⟨(controlDone_iff _).1 (by decide +kernel), rfl, rfl, rfl, .inl ⟨rfl, rfl⟩, ?_, ?_⟩, h1.2⟩
    · rw [List.reverse_reverse]; exact hr
    · intro i hi
      have := h1.1 i (List.mem_reverse.1 hi)
      split at this
      · next x r hx => exact ⟨x, r, hx⟩
      · simp at this

end Spiff
