import Verif.Spec.Sheet
import Verif.Props.Template
/-
C94: expressions in nested maps are resolved along their dependencies, in any order; circular dependencies are reported.
-/
namespace Spiff
open Spec

/-! ### one evaluation -/

theorem truth_eq (v : Val Ex) : toBool v = truth v := by
  cases v with
  | str s =>
    by_cases h : s = ""
    · subst h; rfl
    · have h1 : s.isEmpty = false := by
        cases hs : s.isEmpty with
        | false => rfl
        | true => exact absurd (String.isEmpty_iff.1 hs) h
      simp [toBool, truth, h1, h]
  | list l => cases l <;> simp [toBool, truth]
  | map l => cases l <;> simp [toBool, truth]
  | _ => simp [toBool, truth]

theorem calc_vals (X : EvLib) {op : BinOp} {x y v : Val Ex} (h : Calc op x y v) :
    binVals X op x y {} = .val v {} ∧ badOperand op x = false ∧ badOperand op y = false ∧ v.isExpr = false := by
  cases h <;> refine ⟨?_, rfl, rfl, rfl⟩ <;> first | rfl | skip
  all_goals simp [binVals, compareVals, eqComparable, eqVals, eqScalar, eqInt, Info.join, Flags.add]

/-- the info of an expression waiting for another node -/
def waiting : Info := { issue := "unresolved" }

/-- `e` has the value `v` in the binding -/
def Evals (X : EvLib) (b : Bind) (e : Ex) (v : Val Ex) : Prop := eval X e b false = .val v {} ∧ v.isExpr = false
/-- `e'` remains of `e` in the binding -/
def Pending (X : EvLib) (b : Bind) (e e' : Ex) : Prop := eval X e b false = .val (.expr e') waiting

theorem resolve_evals {X : EvLib} {b : Bind} {e : Ex} {v : Val Ex} (h : Evals X b e v) (info : Option Info) :
    resolve e info (eval X e b false) = .done v (joinInfo info {}) := by
  obtain ⟨h1, h2⟩ := h
  rw [h1]
  cases v <;> first | rfl | cases h2

theorem resolve_left {X : EvLib} {b : Bind} {e e' : Ex} (h : Pending X b e e') (hx : isExpand e = false) (info : Option Info) :
    resolve e info (eval X e b false) = .pend e' (joinInfo info waiting) := by
  rw [h]
  simp only [resolve, keepWrapper, hx, Bool.false_and, Bool.false_eq_true, if_false]

theorem means_shape {fns : Fns} {val : List String → Val Ex → Prop} {absent : List String → Prop} {e : Ex} {v : Val Ex} (h : Means fns val absent e v) : isExpand e = false := by
  cases h <;> rfl
theorem waits_shape {means : Ex → Val Ex → Prop} {stuck : List String → Prop} {e : Ex} (h : Waits means stuck e) : isExpand e = false := by
  cases h <;> rfl

/-- What a binding knows about references. -/
structure RefsGood (X : EvLib) (b : Bind) (val : List String → Val Ex → Prop) (absent stuck : List String → Prop) : Prop where
  val : ∀ p v, val p v → v.isExpr = false ∧ (Evals X b (Ex.ref p) v ∨ Pending X b (Ex.ref p) (Ex.ref p))
  absent : ∀ p, absent p → ∃ i : Info, eval X (Ex.ref p) b false = .fail i ∧ i.cleanError = {}
  stuck : ∀ p, stuck p → Pending X b (Ex.ref p) (Ex.ref p)

/-- the functions of the library are those of the specification -/
def FnsOk (X : EvLib) (fns : Fns) : Prop :=
  ∀ fn f, fns fn = some f → ∃ g, X.fn fn = some g ∧ ∀ vs v, f vs = some v → v.isExpr = false ∧ ∀ src, g vs src = .ok (v, {})

theorem eval_bin (X : EvLib) (b : Bind) (op : BinOp) (a c : Ex) :
    eval X (Ex.bin op a c) b false = binEv X op a c (eval X a b false) (eval X c b false) := rfl

theorem bin_done {X : EvLib} {b : Bind} {op : BinOp} {a c : Ex} {x y v : Val Ex} (ha : Evals X b a x) (hc : Evals X b c y) (h : Calc op x y v) : Evals X b (Ex.bin op a c) v := by
  obtain ⟨h1, h2, h3, h4⟩ := calc_vals X h
  refine ⟨?_, h4⟩
  rw [eval_bin, binEv, resolve_evals ha]
  simp only [h2, Bool.false_eq_true, if_false]
  rw [resolve_evals hc]
  simp only [h3, Bool.false_eq_true, if_false]
  exact h1

theorem bin_left {X : EvLib} {b : Bind} {op : BinOp} {a a' c : Ex} {y : Val Ex} (ha : Pending X b a a') (hx : isExpand a = false) (hc : Evals X b c y) (hb : badOperand op y = false) :
    Pending X b (Ex.bin op a c) (Ex.bin op a' c) := by
  rw [Pending, eval_bin, binEv, resolve_left ha hx]
  simp only
  rw [resolve_evals hc]
  simp only [hb, Bool.false_eq_true, if_false]
  rfl

theorem bin_right {X : EvLib} {b : Bind} {op : BinOp} {a c c' : Ex} {x : Val Ex} (ha : Evals X b a x) (hb : badOperand op x = false) (hc : Pending X b c c') (hx : isExpand c = false) :
    Pending X b (Ex.bin op a c) (Ex.bin op a c') := by
  rw [Pending, eval_bin, binEv, resolve_evals ha]
  simp only [hb, Bool.false_eq_true, if_false]
  rw [resolve_left hc hx]
  rfl

theorem bin_both {X : EvLib} {b : Bind} {op : BinOp} {a a' c c' : Ex} (ha : Pending X b a a') (hx : isExpand a = false) (hc : Pending X b c c') (hx' : isExpand c = false) :
    Pending X b (Ex.bin op a c) (Ex.bin op a' c') := by
  rw [Pending, eval_bin, binEv, resolve_left ha hx]
  simp only
  rw [resolve_left hc hx']
  rfl

theorem eval_not (X : EvLib) (b : Bind) (a : Ex) : eval X (.node .not [a]) b false = notEv a (eval X a b false) := rfl
theorem not_done {X : EvLib} {b : Bind} {a : Ex} {x : Val Ex} (ha : Evals X b a x) : Evals X b (.node .not [a]) (.bool (!truth x)) := by
  refine ⟨?_, rfl⟩
  rw [eval_not, notEv, resolve_evals ha, ← truth_eq]
  rfl
theorem not_left {X : EvLib} {b : Bind} {a a' : Ex} (ha : Pending X b a a') (hx : isExpand a = false) : Pending X b (.node .not [a]) (.node .not [a']) := by
  rw [Pending, eval_not, notEv, resolve_left ha hx]
  rfl

theorem eval_cond (X : EvLib) (b : Bind) (c t f : Ex) : eval X (Ex.cond c t f) b false = condEv c t f (eval X c b false) (eval X t b false) (eval X f b false) := rfl
theorem cond_left {X : EvLib} {b : Bind} {c c' t f : Ex} (ha : Pending X b c c') (hx : isExpand c = false) : Pending X b (Ex.cond c t f) (Ex.cond c' t f) := by
  rw [Pending, eval_cond, condEv, resolve_left ha hx]
  rfl
theorem cond_yes {X : EvLib} {b : Bind} {c t f : Ex} {x v : Val Ex} {i : Info} (ha : Evals X b c x) (ht : truth x = true) (hv : eval X t b false = .val v i) (hi : i = {} ∨ i = waiting) :
    eval X (Ex.cond c t f) b false = .val v i := by
  rw [eval_cond, condEv, resolve_evals ha]
  simp only [truth_eq, ht, if_true, hv]
  rcases hi with rfl | rfl <;> rfl
theorem cond_no {X : EvLib} {b : Bind} {c t f : Ex} {x v : Val Ex} {i : Info} (ha : Evals X b c x) (ht : truth x = false) (hv : eval X f b false = .val v i) (hi : i = {} ∨ i = waiting) :
    eval X (Ex.cond c t f) b false = .val v i := by
  rw [eval_cond, condEv, resolve_evals ha]
  simp only [truth_eq, ht, Bool.false_eq_true, if_false, hv]
  rcases hi with rfl | rfl <;> rfl

theorem eval_orS (X : EvLib) (b : Bind) (a c : Ex) : eval X (Ex.or a c) b false = orEv (Ex.or a c) (eval X a b false) (eval X c b false) := rfl
theorem or_done {X : EvLib} {b : Bind} {a c : Ex} {x : Val Ex} (ha : Evals X b a x) : Evals X b (Ex.or a c) x := by
  refine ⟨?_, ha.2⟩
  rw [eval_orS, ha.1]
  simp only [orEv, Bool.not_false, if_true, ha.2, Bool.false_eq_true, if_false]
theorem or_left {X : EvLib} {b : Bind} {a a' c : Ex} (ha : Pending X b a a') : Pending X b (Ex.or a c) (Ex.or a c) := by
  rw [Pending, eval_orS, ha]
  rfl
theorem or_alternative {X : EvLib} {b : Bind} {a c : Ex} {v : Val Ex} {i j : Info} (ha : eval X a b false = .fail i) (hi : i.cleanError = {}) (hv : eval X c b false = .val v j)
    (hj : j = {} ∨ j = waiting) : eval X (Ex.or a c) b false = .val v j := by
  rw [eval_orS, ha, hv]
  simp only [orEv, hi, orAlt]
  rcases hj with rfl | rfl <;> rfl

/-! calls -/

theorem eval_call (X : EvLib) (b : Bind) (fn : String) (args : List Ex) :
    eval X (Ex.call fn args) b false = callEv X b fn (args.map (fun a => (a, eval X a b false))) := by
  show callEv X b fn (argEv b false args (evalL X args)) = _
  rw [evalL_eq]
  congr 1
  unfold argEv
  induction args with
  | nil => rfl
  | cons a r ih => simp only [List.map_cons, List.zip_cons_cons, ih]

/-- an argument: its value (nil, if there is none), what remains of it, and whether it has a value -/
structure ArgStep (X : EvLib) (b : Bind) (a : Ex) (r : Val Ex × Ex × Bool) : Prop where
  shape : isExpand a = false
  done : r.2.2 = true → Evals X b a r.1 ∧ r.2.1 = a
  left : r.2.2 = false → Pending X b a r.2.1 ∧ r.1 = .nil ∧ isExpand r.2.1 = false

theorem args_step {X : EvLib} {b : Bind} (args : List Ex) (rs : List (Val Ex × Ex × Bool)) (h : List.Forall₂ (ArgStep X b) args rs) (info : Option Info)
    (hi : info = none ∨ info = some {} ∨ info = some waiting) :
    resolveArgs info (args.map (fun a => (a, eval X a b false))) = .ok (rs.map (·.1)) (rs.map (·.2.1)) (rs.all (·.2.2))
      (if rs.all (·.2.2) then info.getD {} else waiting) := by
  induction h generalizing info with
  | nil => simp [resolveArgs]
  | @cons a r args rs h1 _ ih =>
    obtain ⟨v, e, d⟩ := r
    rw [List.map_cons, resolveArgs]
    cases d with
    | true =>
      obtain ⟨h2, h3⟩ := h1.done rfl
      simp only at h2 h3
      subst h3
      rw [resolve_evals h2]
      simp only
      rw [ih _ (by rcases hi with rfl | rfl | rfl <;> simp [joinInfo, waiting, Info.join, Flags.add])]
      simp only [ResL.cons, List.map_cons, List.all_cons, Bool.true_and]
      congr 1
      rcases hi with rfl | rfl | rfl <;> simp [joinInfo, waiting, Info.join, Flags.add]
    | false =>
      obtain ⟨h2, h3, -⟩ := h1.left rfl
      simp only at h2 h3
      subst h3
      rw [resolve_left h2 h1.shape]
      simp only
      rw [ih _ (by rcases hi with rfl | rfl | rfl <;> simp [joinInfo, waiting, Info.join, Flags.add])]
      simp only [ResL.cons, List.map_cons, List.all_cons, Bool.false_and, Bool.false_eq_true, if_false]
      congr 1
      rcases hi with rfl | rfl | rfl <;> split <;> simp [joinInfo, waiting, Info.join, Flags.add]

theorem args_list {X : EvLib} {b : Bind} (args : List Ex) (rs : List (Val Ex × Ex × Bool)) (h : List.Forall₂ (ArgStep X b) args rs) :
    resolveList (args.map (fun a => (a, eval X a b false))) = .ok (rs.map (·.1)) (rs.map (·.2.1)) (rs.all (·.2.2))
      (if rs.all (·.2.2) then {} else waiting) := by
  have hexp : expandArgs ((rs.map (·.1)).zip (rs.map (·.2.1))) = some (rs.map (·.1)) := by
    induction h with
    | nil => rfl
    | @cons a r args rs h1 _ ih =>
      obtain ⟨v, e, d⟩ := r
      have : isExpand e = false := by
        cases d with
        | true => rw [show e = a from (h1.done rfl).2]; exact h1.shape
        | false => exact (h1.left rfl).2.2
      simp only [List.map_cons, List.zip_cons_cons, expandArgs, this, Bool.false_eq_true, if_false, ih, Option.map_some]
  rw [resolveList, args_step args rs h none (.inl rfl)]
  simp only [hexp]
  rfl

theorem call_left {X : EvLib} {b : Bind} (fn : String) (args : List Ex) (rs : List (Val Ex × Ex × Bool)) (h : List.Forall₂ (ArgStep X b) args rs) (hr : rs.all (·.2.2) = false) :
    Pending X b (Ex.call fn args) (Ex.call fn (rs.map (·.2.1))) := by
  rw [Pending, eval_call, callEv, args_list args rs h]
  simp only [hr, Bool.false_eq_true, if_false]

theorem call_done {X : EvLib} {b : Bind} {fns : Fns} (hfns : FnsOk X fns) {fn : String} {f : List (Val Ex) → Option (Val Ex)} (hf : fns fn = some f) (args : List Ex)
    (rs : List (Val Ex × Ex × Bool)) (h : List.Forall₂ (ArgStep X b) args rs) (hr : rs.all (·.2.2) = true) {v : Val Ex} (hv : f (rs.map (·.1)) = some v) :
    Evals X b (Ex.call fn args) v := by
  obtain ⟨g, h1, h2⟩ := hfns fn f hf
  obtain ⟨h3, h4⟩ := h2 _ _ hv
  refine ⟨?_, h3⟩
  rw [eval_call, callEv, args_list args rs h]
  simp only [hr, if_true, h1, Bool.and_false, Bool.false_eq_true, if_false, h4, h3]
  rfl

theorem forall2_index {α β : Type} {R : α → β → Prop} : ∀ (l : List α) (l' : List β), l.length = l'.length →
    (∀ (i : Nat) (h : i < l.length) (h' : i < l'.length), R l[i] l'[i]) → List.Forall₂ R l l'
  | [], [], _, _ => .nil
  | [], _ :: _, h, _ => by cases h
  | _ :: _, [], h, _ => by cases h
  | a :: l, b :: l', h, hr => .cons (hr 0 (by simp) (by simp)) (forall2_index l l' (by simpa using h) (fun i h1 h2 => hr (i + 1) (by simpa using h1) (by simpa using h2)))

theorem index_forall2 {α β : Type} {R : α → β → Prop} {l : List α} {l' : List β} (h : List.Forall₂ R l l') :
    l.length = l'.length ∧ ∀ (i : Nat) (h : i < l.length) (h' : i < l'.length), R l[i] l'[i] := by
  induction h with
  | nil => exact ⟨rfl, fun i h => absurd h (Nat.not_lt_zero i)⟩
  | @cons a b l l' h1 _ ih =>
    refine ⟨by simp [ih.1], fun i h h' => ?_⟩
    cases i with
    | zero => exact h1
    | succ i => exact ih.2 i (by simpa using h) (by simpa using h')

section Steps
variable {X : EvLib} {fns : Fns} {val : List String → Val Ex → Prop} {absent stuck : List String → Prop}

/-- An expression with a meaning is evaluated to it, or something with the same meaning remains. -/
theorem step_means (hf : FnsOk X fns) {b : Bind} (hb : RefsGood X b val absent stuck) {e : Ex} {v : Val Ex} (h : Means fns val absent e v) :
    v.isExpr = false ∧ (Evals X b e v ∨ ∃ e', Pending X b e e' ∧ Means fns val absent e' v) ∧ ((∀ p w, val p w → Evals X b (Ex.ref p) w) → Evals X b e v) := by
  induction h with
  | lit l =>
    have h1 : eval X (Ex.lit l) b false = .val (literal l) {} := by cases l <;> rfl
    have h2 : (literal l).isExpr = false := by cases l <;> rfl
    exact ⟨h2, .inl ⟨h1, h2⟩, fun _ => ⟨h1, h2⟩⟩
  | @ref p v hv =>
    obtain ⟨h1, h2⟩ := hb.val p v hv
    refine ⟨h1, ?_, fun h => h p v hv⟩
    rcases h2 with h2 | h2
    · exact .inl h2
    · exact .inr ⟨_, h2, .ref hv⟩
  | @group e v _ ih => exact ih
  | @not e v he ih =>
    refine ⟨rfl, ?_, fun h => not_done (ih.2.2 h)⟩
    rcases ih.2.1 with h | ⟨e', h1, h2⟩
    · exact .inl (not_done h)
    · exact .inr ⟨_, not_left h1 (means_shape he), .not h2⟩
  | @bin op a c x y v ha hc hv iha ihc =>
    obtain ⟨-, b1, b2, b3⟩ := calc_vals X hv
    refine ⟨b3, ?_, fun h => bin_done (iha.2.2 h) (ihc.2.2 h) hv⟩
    rcases iha.2.1 with h | ⟨a', h1, h2⟩ <;> rcases ihc.2.1 with h' | ⟨c', h1', h2'⟩
    · exact .inl (bin_done h h' hv)
    · exact .inr ⟨_, bin_right h b1 h1' (means_shape hc), .bin ha h2' hv⟩
    · exact .inr ⟨_, bin_left h1 (means_shape ha) h' b2, .bin h2 hc hv⟩
    · exact .inr ⟨_, bin_both h1 (means_shape ha) h1' (means_shape hc), .bin h2 h2' hv⟩
  | @yes c t f x v hc hx ht ihc iht =>
    refine ⟨iht.1, ?_, fun h => ⟨cond_yes (ihc.2.2 h) hx (iht.2.2 h).1 (.inl rfl), iht.1⟩⟩
    rcases ihc.2.1 with h | ⟨c', h1, h2⟩
    · rcases iht.2.1 with h' | ⟨t', h1', h2'⟩
      · exact .inl ⟨cond_yes h hx h'.1 (.inl rfl), iht.1⟩
      · exact .inr ⟨t', cond_yes h hx h1' (.inr rfl), h2'⟩
    · exact .inr ⟨_, cond_left h1 (means_shape hc), .yes h2 hx ht⟩
  | @no c t f x v hc hx ht ihc iht =>
    refine ⟨iht.1, ?_, fun h => ⟨cond_no (ihc.2.2 h) hx (iht.2.2 h).1 (.inl rfl), iht.1⟩⟩
    rcases ihc.2.1 with h | ⟨c', h1, h2⟩
    · rcases iht.2.1 with h' | ⟨t', h1', h2'⟩
      · exact .inl ⟨cond_no h hx h'.1 (.inl rfl), iht.1⟩
      · exact .inr ⟨t', cond_no h hx h1' (.inr rfl), h2'⟩
    · exact .inr ⟨_, cond_left h1 (means_shape hc), .no h2 hx ht⟩
  | @first a c v ha ih =>
    refine ⟨ih.1, ?_, fun h => or_done (ih.2.2 h)⟩
    rcases ih.2.1 with h | ⟨a', h1, h2⟩
    · exact .inl (or_done h)
    · exact .inr ⟨_, or_left h1, .first ha⟩
  | @second p c v hp hc ih =>
    obtain ⟨i, h1, h2⟩ := hb.absent p hp
    refine ⟨ih.1, ?_, fun h => ⟨or_alternative h1 h2 (ih.2.2 h).1 (.inl rfl), ih.1⟩⟩
    rcases ih.2.1 with h | ⟨c', h3, h4⟩
    · exact .inl ⟨or_alternative h1 h2 h.1 (.inl rfl), ih.1⟩
    · exact .inr ⟨c', or_alternative h1 h2 h3 (.inr rfl), h4⟩
  | @call fn f args vs v hfn hlen hargs hv ih =>
    have hall : List.Forall₂ (fun a w => isExpand a = false ∧ Means fns val absent a w ∧ w.isExpr = false ∧ (Evals X b a w ∨ ∃ e', Pending X b a e' ∧ Means fns val absent e' w) ∧
        ((∀ p w, val p w → Evals X b (Ex.ref p) w) → Evals X b a w)) args vs :=
      forall2_index args vs hlen (fun i h h' => ⟨means_shape (hargs i h h'), hargs i h h', ih i h h'⟩)
    have hdone : List.Forall₂ (fun a w => isExpand a = false ∧ Evals X b a w) args vs → Evals X b (Ex.call fn args) v := by
      intro hd
      have : ∃ rs : List (Val Ex × Ex × Bool), List.Forall₂ (ArgStep X b) args rs ∧ rs.map (·.1) = vs ∧ rs.all (·.2.2) = true := by
        clear hv hlen hargs ih hall
        induction hd with
        | nil => exact ⟨[], .nil, rfl, rfl⟩
        | @cons a w args vs h1 _ ih =>
          obtain ⟨rs, g1, g2, g3⟩ := ih
          exact ⟨(w, a, true) :: rs, .cons ⟨h1.1, fun _ => ⟨h1.2, rfl⟩, fun h => (nomatch h)⟩ g1, by simp [g2], by simp [g3]⟩
      obtain ⟨rs, g1, g2, g3⟩ := this
      exact call_done hf hfn args rs g1 g3 (by rw [g2]; exact hv)
    refine ⟨?_, ?_, fun h => hdone (hall.imp (fun _ _ g => ⟨g.1, g.2.2.2.2 h⟩))⟩
    · obtain ⟨g, -, h2⟩ := hf fn f hfn
      exact (h2 _ _ hv).1
    · have : ∃ rs : List (Val Ex × Ex × Bool), List.Forall₂ (ArgStep X b) args rs ∧ List.Forall₂ (fun r w => Means fns val absent r.2.1 w) rs vs ∧
          (rs.all (·.2.2) = true → List.Forall₂ (fun a w => isExpand a = false ∧ Evals X b a w) args vs) := by
        clear hv hlen hargs ih hdone
        induction hall with
        | nil => exact ⟨[], .nil, .nil, fun _ => .nil⟩
        | @cons a w args vs h1 _ ih =>
          obtain ⟨rs, g1, g2, g3⟩ := ih
          obtain ⟨k1, k2, k3, k4, k5⟩ := h1
          rcases k4 with k4 | ⟨e', k4, k6⟩
          · exact ⟨(w, a, true) :: rs, .cons ⟨k1, fun _ => ⟨k4, rfl⟩, fun h => (nomatch h)⟩ g1, .cons k2 g2, fun h => .cons ⟨k1, k4⟩ (g3 (by simpa using h))⟩
          · exact ⟨(.nil, e', false) :: rs, .cons ⟨k1, fun h => (nomatch h), fun _ => ⟨k4, rfl, means_shape k6⟩⟩ g1, .cons k6 g2, fun h => by simp at h⟩
      obtain ⟨rs, g1, g2, g3⟩ := this
      cases hr : rs.all (·.2.2) with
      | true => exact .inl (hdone (g3 hr))
      | false =>
        refine .inr ⟨_, call_left fn args rs g1 hr, ?_⟩
        have g2' : List.Forall₂ (Means fns val absent) (rs.map (·.2.1)) vs := by
          clear g1 g3 hr hall hargs ih hdone hlen hv
          induction g2 with
          | nil => exact .nil
          | cons h _ ih => exact .cons h ih
        obtain ⟨l1, l2⟩ := index_forall2 g2'
        exact .call hfn l1 l2 hv

theorem bad_mod {op : BinOp} (h : op ≠ .mod) (v : Val Ex) : badOperand op v = false := by
  cases op <;> first | rfl | exact absurd rfl h

/-- A waiting expression keeps waiting. -/
theorem step_waits (hf : FnsOk X fns) {b : Bind} (hb : RefsGood X b val absent stuck) {e : Ex} (h : Waits (Means fns val absent) stuck e) :
    ∃ e', Pending X b e e' ∧ Waits (Means fns val absent) stuck e' := by
  induction h with
  | @ref p hp => exact ⟨_, hb.stuck p hp, .ref hp⟩
  | @group e _ ih => exact ih
  | @not e he ih => obtain ⟨e', h1, h2⟩ := ih; exact ⟨_, not_left h1 (waits_shape he), .not h2⟩
  | @both op a c hm ha hc iha ihc =>
    obtain ⟨a', h1, h2⟩ := iha
    obtain ⟨c', h3, h4⟩ := ihc
    exact ⟨_, bin_both h1 (waits_shape ha) h3 (waits_shape hc), .both hm h2 h4⟩
  | @left op a c v hm ha hc iha =>
    obtain ⟨a', h1, h2⟩ := iha
    obtain ⟨-, h | ⟨c', h3, h4⟩, -⟩ := step_means hf hb hc
    · exact ⟨_, bin_left h1 (waits_shape ha) h (bad_mod hm _), .left hm h2 hc⟩
    · exact ⟨_, bin_both h1 (waits_shape ha) h3 (means_shape hc), .left hm h2 h4⟩
  | @right op a c v hm ha hc ihc =>
    obtain ⟨c', h1, h2⟩ := ihc
    obtain ⟨-, h | ⟨a', h3, h4⟩, -⟩ := step_means hf hb ha
    · exact ⟨_, bin_right h (bad_mod hm _) h1 (waits_shape hc), .right hm ha h2⟩
    · exact ⟨_, bin_both h3 (means_shape ha) h1 (waits_shape hc), .right hm h4 h2⟩
  | @cond c t f hc ih => obtain ⟨c', h1, h2⟩ := ih; exact ⟨_, cond_left h1 (waits_shape hc), .cond h2⟩
  | @or a c ha ih => obtain ⟨a', h1, h2⟩ := ih; exact ⟨_, or_left h1, .or ha⟩
  | @call fn args w hex hw hm ih =>
    have hall : ∀ a ∈ args.zipIdx, ∃ r : Val Ex × Ex × Bool, ArgStep X b a.1 r ∧ (w a.2 = true → r.2.2 = false ∧ Waits (Means fns val absent) stuck r.2.1) ∧
        (w a.2 = false → ∃ v, Means fns val absent r.2.1 v) := by
      rintro ⟨a, i⟩ ha
      obtain ⟨hi, rfl⟩ : ∃ h : i < args.length, a = args[i] := by
        rw [List.mem_zipIdx_iff_getElem?] at ha
        obtain ⟨h, h2⟩ := List.getElem?_eq_some_iff.1 ha
        exact ⟨h, h2.symm⟩
      cases hwi : w i with
      | true =>
        obtain ⟨e', h1, h2⟩ := ih i hi hwi
        exact ⟨(.nil, e', false), ⟨waits_shape (hw i hi hwi), fun h => (nomatch h), fun _ => ⟨h1, rfl, waits_shape h2⟩⟩, fun _ => ⟨rfl, h2⟩, fun h => (nomatch h)⟩
      | false =>
        obtain ⟨v, hv⟩ := hm i hi hwi
        obtain ⟨-, h | ⟨e', h1, h2⟩, -⟩ := step_means hf hb hv
        · exact ⟨(v, args[i], true), ⟨means_shape hv, fun _ => ⟨h, rfl⟩, fun h => (nomatch h)⟩, fun h => (nomatch h), fun _ => ⟨v, hv⟩⟩
        · exact ⟨(.nil, e', false), ⟨means_shape hv, fun h => (nomatch h), fun _ => ⟨h1, rfl, means_shape h2⟩⟩, fun h => (nomatch h), fun _ => ⟨v, h2⟩⟩
    have hrs : ∃ rs : List (Val Ex × Ex × Bool), List.Forall₂ (fun a r => ArgStep X b a.1 r ∧ (w a.2 = true → r.2.2 = false ∧ Waits (Means fns val absent) stuck r.2.1) ∧
        (w a.2 = false → ∃ v, Means fns val absent r.2.1 v)) args.zipIdx rs := by
      generalize args.zipIdx = l at hall
      induction l with
      | nil => exact ⟨[], .nil⟩
      | cons a l ih =>
        obtain ⟨r, hr⟩ := hall a (by simp)
        obtain ⟨rs, hrs⟩ := ih (fun a ha => hall a (by simp [ha]))
        exact ⟨r :: rs, .cons hr hrs⟩
    obtain ⟨rs, hrs⟩ := hrs
    obtain ⟨l1, l2⟩ := index_forall2 hrs
    rw [List.length_zipIdx] at l1
    have l3 : ∀ (i : Nat) (h : i < args.length) (h' : i < rs.length), ArgStep X b args[i] rs[i] ∧ (w i = true → rs[i].2.2 = false ∧ Waits (Means fns val absent) stuck rs[i].2.1) ∧
        (w i = false → ∃ v, Means fns val absent rs[i].2.1 v) := by
      intro i h h'
      have := l2 i (by simpa using h) h'
      simpa using this
    have hst : List.Forall₂ (ArgStep X b) args rs := forall2_index _ _ l1 (fun i h h' => (l3 i h h').1)
    obtain ⟨i0, hi0, hw0⟩ := hex
    have hr : rs.all (·.2.2) = false := by
      cases hc : rs.all (·.2.2) with
      | false => rfl
      | true =>
        have := List.all_eq_true.1 hc rs[i0] (List.getElem_mem _)
        rw [((l3 i0 hi0 (by omega)).2.1 hw0).1] at this
        cases this
    refine ⟨_, call_left fn args rs hst hr, .call w ⟨i0, by simpa using (by omega : i0 < rs.length), hw0⟩ (fun i h hi => ?_) (fun i h hi => ?_)⟩
    · have h' : i < rs.length := by simpa using h
      have := ((l3 i (by omega) h').2.1 hi).2
      simpa using this
    · have h' : i < rs.length := by simpa using h
      have := (l3 i (by omega) h').2.2 hi
      simpa using this

/-- all known references have their value -/
def RefsReady (X : EvLib) (b : Bind) (val : List String → Val Ex → Prop) (absent stuck : List String → Prop) : Prop :=
  RefsGood X b val absent stuck ∧ ∀ p w, val p w → Evals X b (Ex.ref p) w

/-- When everything else is known, a waiting expression does not change any more after one evaluation. -/
theorem settle_waits (hf : FnsOk X fns) {e : Ex} (h : Waits (Means fns val absent) stuck e) :
    ∃ e', Waits (Means fns val absent) stuck e' ∧ ∀ b, RefsReady X b val absent stuck → Pending X b e e' ∧ Pending X b e' e' := by
  induction h with
  | @ref p hp => exact ⟨_, .ref hp, fun b hb => ⟨hb.1.stuck p hp, hb.1.stuck p hp⟩⟩
  | @group e _ ih => exact ih
  | @not e he ih =>
    obtain ⟨e', h1, h2⟩ := ih
    exact ⟨_, .not h1, fun b hb => ⟨not_left (h2 b hb).1 (waits_shape he), not_left (h2 b hb).2 (waits_shape h1)⟩⟩
  | @both op a c hm ha hc iha ihc =>
    obtain ⟨a', h1, h2⟩ := iha
    obtain ⟨c', h3, h4⟩ := ihc
    exact ⟨_, .both hm h1 h3, fun b hb => ⟨bin_both (h2 b hb).1 (waits_shape ha) (h4 b hb).1 (waits_shape hc),
      bin_both (h2 b hb).2 (waits_shape h1) (h4 b hb).2 (waits_shape h3)⟩⟩
  | @left op a c v hm ha hc iha =>
    obtain ⟨a', h1, h2⟩ := iha
    refine ⟨_, .left hm h1 hc, fun b hb => ?_⟩
    have hd := (step_means hf hb.1 hc).2.2 hb.2
    exact ⟨bin_left (h2 b hb).1 (waits_shape ha) hd (bad_mod hm _), bin_left (h2 b hb).2 (waits_shape h1) hd (bad_mod hm _)⟩
  | @right op a c v hm ha hc ihc =>
    obtain ⟨c', h1, h2⟩ := ihc
    refine ⟨_, .right hm ha h1, fun b hb => ?_⟩
    have hd := (step_means hf hb.1 ha).2.2 hb.2
    exact ⟨bin_right hd (bad_mod hm _) (h2 b hb).1 (waits_shape hc), bin_right hd (bad_mod hm _) (h2 b hb).2 (waits_shape h1)⟩
  | @cond c t f hc ih =>
    obtain ⟨c', h1, h2⟩ := ih
    exact ⟨_, .cond h1, fun b hb => ⟨cond_left (h2 b hb).1 (waits_shape hc), cond_left (h2 b hb).2 (waits_shape h1)⟩⟩
  | @or a c ha ih =>
    obtain ⟨a', h1, h2⟩ := ih
    exact ⟨_, .or ha, fun b hb => ⟨or_left (h2 b hb).1, or_left (h2 b hb).1⟩⟩
  | @call fn args w hex hw hm ih =>
    let R : Ex × Nat → Val Ex × Ex × Bool → Prop := fun a r =>
      (w a.2 = true ∧ r.1 = .nil ∧ r.2.2 = false ∧ isExpand a.1 = false ∧ Waits (Means fns val absent) stuck r.2.1 ∧
        ∀ b, RefsReady X b val absent stuck → Pending X b a.1 r.2.1 ∧ Pending X b r.2.1 r.2.1) ∨
      (w a.2 = false ∧ r.2.1 = a.1 ∧ r.2.2 = true ∧ Means fns val absent a.1 r.1)
    have hall : ∀ a ∈ args.zipIdx, ∃ r : Val Ex × Ex × Bool, R a r := by
      rintro ⟨a, i⟩ ha
      obtain ⟨hi, rfl⟩ : ∃ h : i < args.length, a = args[i] := by
        rw [List.mem_zipIdx_iff_getElem?] at ha
        obtain ⟨h, h2⟩ := List.getElem?_eq_some_iff.1 ha
        exact ⟨h, h2.symm⟩
      cases hwi : w i with
      | true =>
        obtain ⟨e', h1, h2⟩ := ih i hi hwi
        exact ⟨(.nil, e', false), .inl ⟨hwi, rfl, rfl, waits_shape (hw i hi hwi), h1, h2⟩⟩
      | false =>
        obtain ⟨v, hv⟩ := hm i hi hwi
        exact ⟨(v, args[i], true), .inr ⟨hwi, rfl, rfl, hv⟩⟩
    have hrs : ∃ rs : List (Val Ex × Ex × Bool), List.Forall₂ R args.zipIdx rs := by
      generalize args.zipIdx = l at hall
      induction l with
      | nil => exact ⟨[], .nil⟩
      | cons a l ih =>
        obtain ⟨r, hr⟩ := hall a (by simp)
        obtain ⟨rs, hrs⟩ := ih (fun a ha => hall a (by simp [ha]))
        exact ⟨r :: rs, .cons hr hrs⟩
    obtain ⟨rs, hrs⟩ := hrs
    obtain ⟨l1, l2⟩ := index_forall2 hrs
    rw [List.length_zipIdx] at l1
    have l3 : ∀ (i : Nat) (h : i < args.length) (h' : i < rs.length), R (args[i], i) rs[i] := by
      intro i h h'
      have := l2 i (by simpa using h) h'
      rw [List.getElem_zipIdx, Nat.zero_add] at this
      exact this
    obtain ⟨i0, hi0, hw0⟩ := hex
    have hr : rs.all (·.2.2) = false := by
      cases hc : rs.all (·.2.2) with
      | false => rfl
      | true =>
        have h1 := List.all_eq_true.1 hc rs[i0] (List.getElem_mem _)
        rcases l3 i0 hi0 (by omega) with h | h
        · rw [h.2.2.1] at h1; cases h1
        · rw [hw0] at h; exact (nomatch h.1)
    refine ⟨Ex.call fn (rs.map (·.2.1)), .call w ⟨i0, by simpa using (by omega : i0 < rs.length), hw0⟩ (fun i h hi => ?_) (fun i h hi => ?_), fun b hb => ?_⟩
    · have h' : i < rs.length := by simpa using h
      rw [List.getElem_map]
      rcases l3 i (by omega) h' with g | g
      · exact g.2.2.2.2.1
      · rw [hi] at g; exact (nomatch g.1)
    · have h' : i < rs.length := by simpa using h
      rw [List.getElem_map]
      rcases l3 i (by omega) h' with g | g
      · rw [hi] at g; exact (nomatch g.1)
      · exact ⟨_, by rw [g.2.1]; exact g.2.2.2⟩
    · have s1 : List.Forall₂ (ArgStep X b) args rs := forall2_index _ _ l1 (fun i h h' => by
        rcases l3 i h h' with g | g
        · obtain ⟨g1, g2, g3, g4, g5, g6⟩ := g
          exact ⟨g4, fun h => (by rw [g3] at h; cases h), fun _ => ⟨(g6 b hb).1, g2, waits_shape g5⟩⟩
        · obtain ⟨g1, g2, g3, g4⟩ := g
          exact ⟨means_shape g4, fun _ => ⟨(step_means hf hb.1 g4).2.2 hb.2, g2⟩, fun h => (by rw [g3] at h; cases h)⟩)
      have s2 : List.Forall₂ (ArgStep X b) (rs.map (·.2.1)) rs := forall2_index _ _ (by simp) (fun i h h' => by
        rw [List.getElem_map]
        rcases l3 i (by omega) h' with g | g
        · obtain ⟨g1, g2, g3, g4, g5, g6⟩ := g
          exact ⟨waits_shape g5, fun h => (by rw [g3] at h; cases h), fun _ => ⟨(g6 b hb).2, g2, waits_shape g5⟩⟩
        · obtain ⟨g1, g2, g3, g4⟩ := g
          simp only at g2
          rw [g2]
          exact ⟨means_shape g4, fun _ => ⟨(step_means hf hb.1 g4).2.2 hb.2, g2⟩, fun h => (by rw [g3] at h; cases h)⟩)
      exact ⟨call_left fn args rs s1 hr, call_left fn _ rs s2 hr⟩

end Steps

end Spiff
