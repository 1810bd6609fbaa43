import Verif.Props.SheetRefs
/-
C94, third part: the passes over a sheet.
-/
namespace Spiff
open Spec

/-! ### values are unique -/

theorem means_mono {fns : Fns} {val val' : List String → Val Ex → Prop} {absent : List String → Prop} (hv : ∀ p v, val p v → val' p v) {e : Ex} {v : Val Ex}
    (h : Means fns val absent e v) : Means fns val' absent e v := by
  induction h with
  | lit l => exact .lit l
  | ref h => exact .ref (hv _ _ h)
  | group _ ih => exact .group ih
  | not _ ih => exact .not ih
  | bin _ _ h ih1 ih2 => exact .bin ih1 ih2 h
  | yes _ h _ ih1 ih2 => exact .yes ih1 h ih2
  | no _ h _ ih1 ih2 => exact .no ih1 h ih2
  | first _ ih => exact .first ih
  | second h _ ih => exact .second h ih
  | call h1 h2 _ h3 ih => exact .call h1 h2 ih h3

theorem waits_mono {means means' : Ex → Val Ex → Prop} {stuck stuck' : List String → Prop} (hm : ∀ e v, means e v → means' e v) (hs : ∀ p, stuck p → stuck' p) {e : Ex}
    (h : Waits means stuck e) : Waits means' stuck' e := by
  induction h with
  | ref h => exact .ref (hs _ h)
  | group _ ih => exact .group ih
  | not _ ih => exact .not ih
  | both h _ _ ih1 ih2 => exact .both h ih1 ih2
  | left h _ h2 ih => exact .left h ih (hm _ _ h2)
  | right h h2 _ ih => exact .right h (hm _ _ h2) ih
  | cond _ ih => exact .cond ih
  | or _ ih => exact .or ih
  | call w h1 _ h3 ih => exact .call w h1 ih (fun i h hw => (h3 i h hw).imp (fun _ h => hm _ _ h))

theorem calc_unique {op : BinOp} {x y v v' : Val Ex} (h : Calc op x y v) (h' : Calc op x y v') : v = v' := by
  cases h <;> cases h' <;> rfl

theorem means_unique {fns : Fns} {val val' : List String → Val Ex → Prop} {absent : List String → Prop} (hu : ∀ p w w', val p w → val' p w' → w = w')
    (ha : ∀ p w, val p w → ¬absent p) (ha' : ∀ p w, val' p w → ¬absent p) {e : Ex} {v : Val Ex} (h : Means fns val absent e v) :
    ∀ v', Means fns val' absent e v' → v = v' := by
  induction h with
  | lit l => intro v' h'; cases h'; rfl
  | ref h => intro v' h'; cases h' with | ref h2 => exact hu _ _ _ h h2
  | group _ ih => intro v' h'; cases h' with | group h2 => exact ih _ h2
  | not _ ih => intro v' h'; cases h' with | not h2 => rw [ih _ h2]
  | bin _ _ h ih1 ih2 =>
    intro v' h'
    cases h' with
    | bin g1 g2 g3 =>
      cases ih1 _ g1
      cases ih2 _ g2
      exact calc_unique h g3
  | yes _ h _ ih1 ih2 =>
    intro v' h'
    cases h' with
    | yes g1 g2 g3 => exact ih2 _ g3
    | no g1 g2 g3 => cases ih1 _ g1; rw [h] at g2; cases g2
  | no _ h _ ih1 ih2 =>
    intro v' h'
    cases h' with
    | yes g1 g2 g3 => cases ih1 _ g1; rw [h] at g2; cases g2
    | no g1 g2 g3 => exact ih2 _ g3
  | first h ih =>
    intro v' h'
    cases h' with
    | first g => exact ih _ g
    | second g1 g2 => cases h with | ref h => exact absurd g1 (ha _ _ h)
  | second h _ ih =>
    intro v' h'
    cases h' with
    | first g => cases g with | ref g => exact absurd h (ha' _ _ g)
    | second g1 g2 => exact ih _ g2
  | @call fn f args vs v h1 h2 h4 h3 ih =>
    intro v' h'
    cases h' with
    | @call _ f' _ vs' _ g1 g2 g4 g3 =>
      rw [h1] at g1
      cases g1
      have : vs = vs' := List.ext_getElem (by omega) (fun i k k' => ih i (by omega) k _ (g4 i (by omega) k'))
      subst this
      rw [h3] at g3
      exact Option.some.inj g3

theorem parsed_unique {L : Lang Ex} {t : String} {e e' : Ex} (h : ParsesTo L t e) (h' : ParsesTo L t e') : e = e' := by
  obtain ⟨s, h1, h2⟩ := h
  obtain ⟨s', h3, h4⟩ := h'
  rw [h1] at h3
  cases h3
  have := h2 [] []
  rw [h4] at this
  exact (Option.some.inj this).symm

/-- the values of references, found in `k` steps -/
def knownIn (L : Lang Ex) (fns : Fns) (k : Nat) (around : Blocks) (p : List String) (w : Val Ex) : Prop :=
  ∃ around' c q u, target around p = .place around' c q ∧ ComputesIn L fns k around' c u ∧ dataAt q u = some w
abbrev absentAt (around : Blocks) (p : List String) : Prop := target around p = .absent
abbrev stuckAt (L : Lang Ex) (fns : Fns) (around : Blocks) (p : List String) : Prop := ∃ around' c q, target around p = .place around' c q ∧ Circular L fns around' c

theorem computesIn_mono {L : Lang Ex} {fns : Fns} (k : Nat) : ∀ {around : Blocks} {c : Cell} {v : Val Ex}, ComputesIn L fns k around c v → ComputesIn L fns (k + 1) around c v := by
  induction k with
  | zero =>
    intro around c v h
    cases c with
    | data n => exact h
    | formula t s o => exact h.elim
  | succ k ih =>
    intro around c v h
    cases c with
    | data n => exact h
    | formula t s o =>
      obtain ⟨w, h0, h1, e, h2, h3⟩ := h
      exact ⟨w, h0, h1, e, h2, means_mono (fun p w ⟨a, c, q, u, g1, g2, g3⟩ => ⟨a, c, q, u, g1, ih g2, g3⟩) h3⟩

theorem computesIn_le {L : Lang Ex} {fns : Fns} {k k' : Nat} (hk : k ≤ k') {around : Blocks} {c : Cell} {v : Val Ex} (h : ComputesIn L fns k around c v) : ComputesIn L fns k' around c v := by
  induction hk with
  | refl => exact h
  | step _ ih => exact computesIn_mono _ ih

theorem computesIn_unique {L : Lang Ex} {fns : Fns} (k : Nat) : ∀ {k' : Nat} {around : Blocks} {c : Cell} {v v' : Val Ex}, ComputesIn L fns k around c v → ComputesIn L fns k' around c v' → v = v' := by
  induction k with
  | zero =>
    intro k' around c v v' h h'
    cases c with
    | data n => cases k' <;> exact h.trans h'.symm
    | formula t s o => exact h.elim
  | succ k ih =>
    intro k' around c v v' h h'
    cases c with
    | data n => cases k' <;> exact h.trans h'.symm
    | formula t s o =>
      cases k' with
      | zero => exact h'.elim
      | succ k' =>
        obtain ⟨w, rfl, -, e, h2, h3⟩ := h
        obtain ⟨w', rfl, -, e', h2', h3'⟩ := h'
        cases parsed_unique h2 h2'
        refine congrArg _ ?_
        refine means_unique ?_ ?_ ?_ h3 _ h3'
        · rintro p w w' ⟨a, c, q, u, g1, g2, g3⟩ ⟨a', c', q', u', g1', g2', g3'⟩
          rw [g1] at g1'
          cases g1'
          cases ih g2 g2'
          rw [g3] at g3'
          exact Option.some.inj g3'
        · rintro p w ⟨a, c, q, u, g1, -⟩ h
          rw [h] at g1
          cases g1
        · rintro p w ⟨a, c, q, u, g1, -⟩ h
          rw [h] at g1
          cases g1

/-- **C94**: the value of a cell is unique. -/
theorem computes_unique {L : Lang Ex} {fns : Fns} {around : Blocks} {c : Cell} {v v' : Val Ex} (h : Computes L fns around c v) (h' : Computes L fns around c v') : v = v' := by
  obtain ⟨k, h⟩ := h
  obtain ⟨k', h'⟩ := h'
  exact computesIn_unique k h h'

theorem means_not_waits {fns : Fns} {val : List String → Val Ex → Prop} {absent : List String → Prop} {M : Ex → Val Ex → Prop} {stuck : List String → Prop}
    (hv : ∀ p w, val p w → ¬stuck p) (ha : ∀ p, absent p → ¬stuck p) {e : Ex} {v : Val Ex} (h : Means fns val absent e v) : ¬Waits M stuck e := by
  induction h with
  | lit l => intro h'; cases h'
  | ref h => intro h'; cases h' with | ref h2 => exact hv _ _ h h2
  | group _ ih => intro h'; cases h' with | group h2 => exact ih h2
  | not _ ih => intro h'; cases h' with | not h2 => exact ih h2
  | bin _ _ h ih1 ih2 =>
    intro h'
    cases h' with
    | both _ g _ => exact ih1 g
    | left _ g _ => exact ih1 g
    | right _ _ g => exact ih2 g
  | yes _ h _ ih1 ih2 => intro h'; cases h' with | cond g => exact ih1 g
  | no _ h _ ih1 ih2 => intro h'; cases h' with | cond g => exact ih1 g
  | first h ih => intro h'; cases h' with | or g => exact ih g
  | second h _ ih => intro h'; cases h' with | or g => cases g with | ref g => exact ha _ h g
  | @call fn f args vs v h1 h2 h4 h3 ih =>
    intro h'
    cases h' with
    | call w g1 g2 g3 =>
      obtain ⟨i, hi, hw⟩ := g1
      exact ih i hi (by omega) (g2 i hi hw)

/-- **C94**: a cell with a value is not circular. -/
theorem circular_no_value {L : Lang Ex} {fns : Fns} {around : Blocks} {c : Cell} {v : Val Ex} (h : Computes L fns around c v) : ¬Circular L fns around c := by
  obtain ⟨k, h⟩ := h
  induction k generalizing around c v with
  | zero =>
    rintro ⟨S, hS, hc⟩
    obtain ⟨t, s, o, e, rfl, -⟩ := hS _ _ hc
    exact h.elim
  | succ k ih =>
    rintro ⟨S, hS, hc⟩
    obtain ⟨t, s, o, e, rfl, h1, h2⟩ := hS _ _ hc
    obtain ⟨w, -, -, e', h3, h4⟩ := h
    cases parsed_unique h1 h3
    refine means_not_waits ?_ ?_ h4 h2
    · rintro p w ⟨a, c, q, u, g1, g2, g3⟩ ⟨a', c', q', g4, g5⟩
      rw [g1] at g4
      cases g4
      exact ih g2 ⟨S, hS, g5⟩
    · rintro p g ⟨a', c', q', g4, g5⟩
      rw [g] at g4
      cases g4

theorem circular_waits {L : Lang Ex} {fns : Fns} {around : Blocks} {c : Cell} (h : Circular L fns around c) : ∃ t s o e, c = .formula t s o ∧ ParsesTo L t e ∧
    Waits (Means fns (known L fns around) (absentAt around)) (stuckAt L fns around) e := by
  obtain ⟨S, hS, hc⟩ := h
  obtain ⟨t, s, o, e, h1, h2, h3⟩ := hS _ _ hc
  exact ⟨t, s, o, e, h1, h2, waits_mono (fun _ _ h => h) (fun p ⟨a, c, q, g1, g2⟩ => ⟨a, c, q, g1, S, hS, g2⟩) h3⟩

/-! ### the state of a cell -/

def waitingAnn : Ann := { issue := "unresolved" }

/-- After the first pass a formula is an expression with the same meaning, or its value. -/
def CellInv (L : Lang Ex) (fns : Fns) (around : Blocks) (c : Cell) (n : Node Ex) : Prop :=
  match c with
  | .data d => n = d ∧ Plain L d
  | .formula t s o => (∀ q, o = some q → Plain L q) ∧
    ((∃ e a, n = .mk (.expr e) s a ∧ (a = {} ∨ a = waitingAnn) ∧
      (∀ k v, ComputesIn L fns (k + 1) around (.formula t s o) v → ∃ w, v = replaced o w ∧ PlainV L {} w ∧ Means fns (knownIn L fns k around) (absentAt around) e w) ∧
      (Circular L fns around (.formula t s o) → Waits (Means fns (known L fns around) (absentAt around)) (stuckAt L fns around) e)) ∨
    ∃ w, Computes L fns around (.formula t s o) (replaced o w) ∧ PlainV L {} w ∧ n = o.getD (.mk w s {}))

theorem plain_bare {L : Lang Ex} {n : Node Ex} (h : Plain L n) : PlainV L {} n.val := by
  obtain ⟨v, s, a⟩ := n
  cases v <;> simp_all [Plain, PlainV, Node.val, bare]

theorem getD_val (o : Option (Node Ex)) (w : Val Ex) (s : String) : (o.getD (.mk w s {})).val = replaced o w := by
  cases o <;> rfl

theorem getD_plain {L : Lang Ex} {o : Option (Node Ex)} (ho : ∀ q, o = some q → Plain L q) {w : Val Ex} (hw : PlainV L {} w) (s : String) : Plain L (o.getD (.mk w s {})) := by
  cases o with
  | none => exact hw
  | some q => exact ho q rfl

theorem computes_plain {L : Lang Ex} {fns : Fns} {around : Blocks} {t s : String} {o : Option (Node Ex)} (ho : ∀ q, o = some q → Plain L q) {v : Val Ex}
    (h : Computes L fns around (.formula t s o) v) : PlainV L {} v := by
  obtain ⟨k, h⟩ := h
  cases k with
  | zero => exact h.elim
  | succ k =>
    obtain ⟨w, rfl, hw, -⟩ := h
    rw [← getD_val o w s]
    exact plain_bare (getD_plain ho hw s)

theorem notYet_waiting (e x : Ex) (s : String) {a : Ann} (h : a = {} ∨ a = waitingAnn) (q : List String) : entered e (enter e q (.mk (.expr x) s a)) = .val (.expr e) waiting := by
  have : enter e q (.mk (.expr x) s a) = .inr (notYet e (.mk (.expr x) s a)) := by
    cases q <;> rfl
  rw [this]
  rcases h with rfl | rfl <;> rfl

theorem entered_plain {L : Lang Ex} (e : Ex) {n : Node Ex} (h : Plain L n) {q : List String} {w : Val Ex} (hw : dataAt q n.val = some w) :
    entered e (enter e q n) = .val w {} ∧ w.isExpr = false := by
  obtain ⟨step, h1, h2, h3⟩ := enter_plain e q n w h hw
  rw [h1]
  refine ⟨?_, h2 ▸ plain_value h3⟩
  show refResult false e false step = _
  rw [result_plain e h3, h2]

section Pass
variable {X : EvLib} {R : RefLib Ex} {base : Lang Ex} {L : Lang Ex} {fns : Fns}

/-- references to cells with values -/
theorem refs_done (hX : X.ctl = false) (hR : R.ctl = false) {P : Blocks → Cell → Node Ex → Prop}
    {V : Blocks → Cell → Val Ex → Prop} (hV : ∀ a c n u, P a c n → V a c u → n.val = u ∧ Plain L n) {around : Blocks} {env : Env Ex} (hs : ScopesOk L P around env.scopes) (ho : env.outer = [])
    {p : List String} {w : Val Ex} (h : ∃ around' c q u, target around p = .place around' c q ∧ V around' c u ∧ dataAt q u = some w) : Evals X (bindOf R env) (Ex.ref p) w := by
  obtain ⟨a, c, q, u, h1, h2, h3⟩ := h
  obtain ⟨n, h4, h5⟩ := (ref_target (X := X) (R := R) hX hR hs ho p).1 a c q h1
  obtain ⟨h6, h7⟩ := hV _ _ _ _ h4 h2
  subst h6
  obtain ⟨h8, h9⟩ := entered_plain (Ex.ref p) h7 h3
  exact ⟨h5.trans h8, h9⟩

theorem refs_good (hX : X.ctl = false) (hR : R.ctl = false) {P : Blocks → Cell → Node Ex → Prop} (hP : ∀ a c n, P a c n → CellInv L fns a c n) {around : Blocks} {env : Env Ex}
    (hs : ScopesOk L P around env.scopes) (ho : env.outer = []) : RefsGood X (bindOf R env) (known L fns around) (absentAt around) (stuckAt L fns around) where
  val := by
    rintro p w ⟨a, c, q, u, h1, h2, h3⟩
    obtain ⟨n, h4, h5⟩ := (ref_target (X := X) (R := R) hX hR hs ho p).1 a c q h1
    have hi := hP _ _ _ h4
    cases c with
    | data d =>
      obtain ⟨rfl, hp⟩ := hi
      obtain ⟨k, hk⟩ := h2
      have hu : u = n.val := by cases k <;> exact hk
      subst hu
      obtain ⟨h8, h9⟩ := entered_plain (Ex.ref p) hp h3
      exact ⟨h9, .inl ⟨h5.trans h8, h9⟩⟩
    | formula t s o =>
      obtain ⟨ho, hi⟩ := hi
      have hpu : Plain L (.mk u s {}) := computes_plain ho h2
      rcases hi with ⟨e, an, rfl, ha, -⟩ | ⟨v, hv, hp, rfl⟩
      · obtain ⟨-, h9⟩ := entered_plain (Ex.ref p) hpu h3
        exact ⟨h9, .inr (h5.trans (notYet_waiting _ _ _ ha _))⟩
      · have hu : u = (o.getD (.mk v s {})).val := (computes_unique h2 hv).trans (getD_val o v s).symm
        subst hu
        obtain ⟨h8, h9⟩ := entered_plain (Ex.ref p) (getD_plain ho hp s) h3
        exact ⟨h9, .inl ⟨h5.trans h8, h9⟩⟩
  absent := fun p h => (ref_target (X := X) (R := R) hX hR hs ho p).2 h
  stuck := by
    rintro p ⟨a, c, q, h1, h2⟩
    obtain ⟨n, h4, h5⟩ := (ref_target (X := X) (R := R) hX hR hs ho p).1 a c q h1
    have hi := hP _ _ _ h4
    cases c with
    | data d =>
      obtain ⟨t, s, o, e, h, -⟩ := circular_waits h2
      cases h
    | formula t s o =>
      obtain ⟨ho, hi⟩ := hi
      rcases hi with ⟨e, an, rfl, ha, -⟩ | ⟨v, hv, hp, rfl⟩
      · exact h5.trans (notYet_waiting _ _ _ ha _)
      · exact absurd h2 (circular_no_value hv)

/-! ### one cell in a pass -/

/-- the environment a formula is evaluated in -/
def srcEnv (env : Env Ex) (s : String) : Env Ex := if s ≠ env.sourceName then env.withSource s else env

theorem srcEnv_same (env : Env Ex) (s : String) : (srcEnv env s).scopes = env.scopes ∧ (srcEnv env s).outer = env.outer := by
  unfold srcEnv
  split <;> exact ⟨rfl, rfl⟩

theorem flow_done {env : Env Ex} (hst : ∀ s ∈ env.stubs, Plain (exLang X R base) s) (hnm : env.nomerge = false) {e : Ex} {v : Val Ex} {s : String} {a : Ann} (ha : a = {} ∨ a = waitingAnn)
    (hd : Evals X (bindOf R (srcEnv env s)) e v) (hp : PlainV (exLang X R base) {} v) (fuel : Nat) :
    flow (exLang X R base) (fuel + 1) env (.mk (.expr e) s a) true false = .ok ((findInStubs false env.stubs env.stubPath).getD (.mk v s {})) := by
  have hfe : flowExpr (exLang X R base) (.mk (.expr e) s a) e env true false none = .inr (.mk v s {}, false, {}, none, "") := by
    have hx : (exLang X R base).eval e (if (Node.mk (Val.expr e) s a).src ≠ env.sourceName then env.withSource (Node.mk (Val.expr e) s a).src else env) = (v, {}, true) := by
      show (eval X e (bindOf R (srcEnv env s)) false).triple = _
      rw [hd.1]
      rfl
    unfold flowExpr
    generalize (if (Node.mk (Val.expr e) s a).src ≠ env.sourceName then env.withSource (Node.mk (Val.expr e) s a).src else env) = env2 at hx ⊢
    have hmk : asTemplate (exLang X R base) e false = none := rfl
    rw [hmk]
    simp only [exprRoot, exprEval, hx, Bool.not_true, Bool.false_eq_true, if_false]
    have hval : exprValue (exLang X R base) v {} (.mk (.expr e) s a) env2 = .mk v s {} := by
      unfold exprValue
      simp only [ne_eq, not_true_eq_false, if_false, Node.src, Node.new]
      cases v with
      | str x =>
        simp only [Val.isStr, if_true, flowString, embedded, Node.val]
        have : embeddedDynaml (exLang X R base).quote (exLang X R base).interpol x.toList = none := hp.2
        rw [this]
        rfl
      | _ => rfl
    have hne : v.isExpr = false := by
      have := plain_value (n := .mk v s {}) hp
      exact this
    rw [hval]
    rcases ha with rfl | rfl <;>
    · simp only [exprAnn, Node.val, Node.ann, hne]
      rfl
  have hs : a.replace = false ∧ a.merged = false ∧ a.redirectPath = none := by rcases ha with rfl | rfl <;> exact ⟨rfl, rfl, rfl⟩
  simp only [flow, flowStep, Node.ann, Node.val, hs.1, hs.2.1, hs.2.2, Val.isExpr, Bool.not_false, Bool.not_true, Bool.and_false, Bool.false_eq_true, if_false, if_true, hfe]
  exact congrArg _ (override_bare hst hnm v s true)

theorem flow_left {env : Env Ex} {e e' : Ex} {s : String} {a : Ann} (ha : a = {} ∨ a = waitingAnn)
    (hd : Pending X (bindOf R (srcEnv env s)) e e') (fuel : Nat) :
    flow (exLang X R base) (fuel + 1) env (.mk (.expr e) s a) true false = .ok (.mk (.expr e') s waitingAnn) := by
  have hfe : flowExpr (exLang X R base) (.mk (.expr e) s a) e env true false none = .inl (.mk (.expr e') s waitingAnn) := by
    have hx : (exLang X R base).eval e (if (Node.mk (Val.expr e) s a).src ≠ env.sourceName then env.withSource (Node.mk (Val.expr e) s a).src else env) = (.expr e', waiting, true) := by
      show (eval X e (bindOf R (srcEnv env s)) false).triple = _
      rw [hd]
      rfl
    unfold flowExpr
    generalize (if (Node.mk (Val.expr e) s a).src ≠ env.sourceName then env.withSource (Node.mk (Val.expr e) s a).src else env) = env2 at hx ⊢
    have hmk : asTemplate (exLang X R base) e false = none := rfl
    rw [hmk]
    simp only [exprRoot, exprEval, hx, Bool.not_true, Bool.false_eq_true, if_false]
    rcases ha with rfl | rfl <;> rfl
  have hs : a.replace = false ∧ a.merged = false ∧ a.redirectPath = none := by rcases ha with rfl | rfl <;> exact ⟨rfl, rfl, rfl⟩
  simp only [flow, flowStep, Node.ann, Node.val, hs.1, hs.2.1, hs.2.2, Val.isExpr, Bool.not_false, Bool.not_true, Bool.and_false, Bool.false_eq_true, if_false, if_true, hfe]

end Pass
end Spiff
