import Verif.Props.Cleanup
import Verif.Props.Escape
/-
C09: order of stub processing.  `fl` is the processing of one document against a
list of stubs and is arbitrary here.
Also the tree level part of C13 (unescaping of the whole output).
-/
namespace Spiff.Props
open Spiff.Spec
variable {E : Type}

/-- C09, success: `done` is the list of prepared stubs iff every entry `i` is the
(local nodes discarded) result of processing stub `i` against exactly the prepared
stubs to its right, and - unless partial processing is requested - none of these
reported an error. -/
theorem prepareStubs_ok_iff (fl : NestedFlow E) (isPartial : Bool) (stubs done : List (Node E)) :
    prepareStubs fl isPartial stubs = .ok done ↔
      done.length = stubs.length ∧
      ∀ i s, stubs[i]? = some s →
        done[i]? = some (cleanup discardLocal () (fl s (done.drop (i+1))).1) ∧
        (isPartial = false → (fl s (done.drop (i+1))).2 = none) := by
  induction stubs generalizing done with
  | nil =>
    simp only [prepareStubs, Except.ok.injEq]
    constructor
    · rintro rfl; simp
    · rintro ⟨h, _⟩; exact (List.length_eq_zero_iff.1 (by simpa using h)).symm
  | cons s rest ih =>
    constructor
    · intro h
      simp only [prepareStubs] at h
      split at h
      · cases h
      · rename_i d hd
        have hd' := (ih d).1 hd
        have key : ∀ r e, fl s d = (r, e) → (isPartial = false → e = none) →
            done = cleanup discardLocal () r :: d → 
            done.length = (s :: rest).length ∧ ∀ i s', (s :: rest)[i]? = some s' →
              done[i]? = some (cleanup discardLocal () (fl s' (done.drop (i+1))).1) ∧
              (isPartial = false → (fl s' (done.drop (i+1))).2 = none) := by
          intro r e hfl he hdone
          subst hdone
          refine ⟨by simp [hd'.1], ?_⟩
          intro i s' hi
          cases i with
          | zero => 
            simp only [List.getElem?_cons_zero, Option.some.injEq] at hi
            subst hi
            simp [hfl]; exact he
          | succ i =>
            simp only [List.getElem?_cons_succ, List.drop_succ_cons] at hi ⊢
            exact hd'.2 i s' hi
        split at h
        · rename_i r hfl
          injection h with h
          exact key _ _ hfl (fun _ => rfl) h.symm
        · rename_i r e hfl
          cases isPartial
          · simp at h
          · simp at h
            exact key _ _ hfl (by simp) h.symm
    · rintro ⟨hlen, hall⟩
      cases done with
      | nil => simp at hlen
      | cons d0 d =>
        have hd : prepareStubs fl isPartial rest = .ok d := by
          rw [ih]
          refine ⟨by simpa using hlen, ?_⟩
          intro i s' hi
          have := hall (i+1) s' (by simpa using hi)
          simpa using this
        have h0 := hall 0 s (by simp)
        simp only [List.getElem?_cons_zero, List.drop_succ_cons, List.drop_zero, Option.some.injEq] at h0
        simp only [prepareStubs, hd]
        obtain ⟨h0a, h0b⟩ := h0
        rcases hfl : fl s d with ⟨r, _ | e⟩
        · simp [h0a, hfl]
        · cases isPartial
          · simp [hfl] at h0b
          · simp [h0a, hfl]

/-- C09, failure: without partial processing the preparation fails with error `e`
exactly if there is a stub whose right neighbours could all be processed and that
fails with `e` against them. No stub left of it is processed. -/
theorem prepareStubs_error_iff (fl : NestedFlow E) (stubs : List (Node E)) (e : String) :
    prepareStubs fl false stubs = .error e ↔
      ∃ left s right done r, stubs = left ++ s :: right ∧
        prepareStubs fl false right = .ok done ∧ fl s done = (r, some e) := by
  induction stubs with
  | nil => simp [prepareStubs]
  | cons s rest ih =>
    simp only [prepareStubs]
    constructor
    · intro h
      split at h
      · rename_i e' he
        injection h with h; subst h
        obtain ⟨l, s', r, d, x, h1, h2, h3⟩ := ih.1 he
        exact ⟨s :: l, s', r, d, x, by simp [h1], h2, h3⟩
      · rename_i d hd
        split at h
        · cases h
        · rename_i r e' hfl
          simp at h; subst h
          exact ⟨[], s, rest, d, r, rfl, hd, hfl⟩
    · rintro ⟨l, s', r, d, x, h1, h2, h3⟩
      cases l with
      | nil =>
        simp at h1
        obtain ⟨rfl, rfl⟩ := h1
        simp [h2, h3]
      | cons a l =>
        simp at h1
        obtain ⟨rfl, rfl⟩ := h1
        have := ih.2 ⟨l, s', r, d, x, rfl, h2, h3⟩
        simp [this]

/-- C09: with partial processing stub preparation never fails. -/
theorem prepareStubs_partial_mode (fl : NestedFlow E) (stubs : List (Node E)) :
    ∃ done, prepareStubs fl true stubs = .ok done := by
  induction stubs with
  | nil => exact ⟨[], rfl⟩
  | cons s rest ih =>
    obtain ⟨d, hd⟩ := ih
    simp only [prepareStubs, hd]
    split <;> exact ⟨_, rfl⟩

/-- C09: the template is processed against all prepared stubs, and its error is
the error of the merge; on success the output is the processed document without
temporary nodes and unescaped (unless the options say otherwise). -/
theorem cascade_template (q : List Char → List Char) (ip : Bool) (fl : NestedFlow E)
    (t : Node E) (opts : Options) (stubs done : List (Node E))
    (h : prepareStubs fl opts.isPartial stubs = .ok done) :
    (∀ r e, fl t done = (r, some e) → cascade q ip fl t opts stubs = .ok (r, some e)) ∧
    (∀ r, fl t done = (r, none) → opts.preserveTemporary = false → opts.preserveEscapes = false →
       cascade q ip fl t opts stubs = .ok (unescapeDoc q ip (cleanup discardTemporary () r), none)) ∧
    (∀ r, fl t done = (r, none) → opts.preserveTemporary = true → opts.preserveEscapes = true →
       cascade q ip fl t opts stubs = .ok (r, none)) := by
  refine ⟨?_, ?_, ?_⟩
  · intro r e hf; simp [cascade, h, applyTemplate, hf]
  · intro r hf h1 h2; simp [cascade, h, applyTemplate, hf, h1, h2]
  · intro r hf h1 h2; simp [cascade, h, applyTemplate, hf, h1, h2]

/-- witness for the hypotheses: a flow that appends the number of stubs it saw -/
def countFlow : NestedFlow Empty := fun n stubs => (.mk (.int stubs.length) n.src n.ann, none)
example : prepareStubs countFlow false [okLeaf, okLeaf, okLeaf] =
    .ok [.mk (.int 2) "" {}, .mk (.int 1) "" {}, .mk (.int 0) "" {}] := rfl
/-- a flow failing on strings -/
def failFlow : NestedFlow Empty := fun n _ => (n, match n.val with | .str s => some s | _ => none)
example : prepareStubs failFlow false [okLeaf, tmpLeaf] = .error "x" := rfl

/-! ### C13 on whole documents -/

/-- the keys on the way to a descendant -/
def Desc.keys (d : Desc E) : List Step := d.chain.map Prod.fst

/-- effect of unescaping on a single value -/
def unescHead (q : List Char → List Char) (ip : Bool) : Val E → Val E
  | .str s => .str (unescapeS q ip s)
  | v => v

/-- no map key below (or in) the value is an escaped merge key -/
def NoEscapedKeys (d : List (Desc E)) : Prop :=
  ∀ x ∈ d, ∀ k, Step.field k ∈ Desc.keys x → unescapeKey k = k

theorem NoEscapedKeys.append {a b : List (Desc E)} (h : NoEscapedKeys (a ++ b)) :
    NoEscapedKeys a ∧ NoEscapedKeys b :=
  ⟨fun x hx => h x (List.mem_append_left _ hx), fun x hx => h x (List.mem_append_right _ hx)⟩

theorem NoEscapedKeys.under {l : List (Desc E)} {y : Step × Ann}
    (h : NoEscapedKeys (l.map (Desc.under y))) : NoEscapedKeys l := by
  intro x hx k hk
  refine h (Desc.under y x) (List.mem_map_of_mem hx) k ?_
  simp [Desc.keys, Desc.under] at hk ⊢
  exact Or.inr hk

/-- observable part of a descendant: keys, and value -/
def obs (d : Desc E) : List Step × Val E := (Desc.keys d, d.value)
def unescObs (q : List Char → List Char) (ip : Bool) (d : Desc E) : List Step × Val E :=
  (Desc.keys d, unescHead q ip d.value)

theorem obs_under (l l' : List (Desc E)) (f : Desc E → List Step × Val E) (g : Val E → Val E)
    (hf : ∀ d, f d = (Desc.keys d, g d.value)) (y y' : Step × Ann) (hy : y.1 = y'.1)
    (h : l.map obs = l'.map f) : (l.map (Desc.under y)).map obs = (l'.map (Desc.under y')).map f := by
  induction l generalizing l' with
  | nil => cases l' <;> simp_all
  | cons d r ih =>
    cases l' with
    | nil => simp at h
    | cons d' r' =>
      simp only [List.map_cons, List.cons.injEq] at h ⊢
      refine ⟨?_, ih r' h.2⟩
      have := h.1
      rw [hf] at this ⊢
      simp only [obs, Prod.mk.injEq] at this
      simp [obs, Desc.keys, Desc.under, hy, this.2]
      simpa [Desc.keys] using this.1

mutual
theorem obs_unescape (q ip) : (v : Val E) → NoEscapedKeys (descsV v) →
    (descsV (unescapeVal q ip v)).map obs = (descsV v).map (unescObs q ip)
  | .list l, h => by simp only [unescapeVal, descsV] at h ⊢; exact obs_unescapeL q ip l h
  | .map m, h => by simp only [unescapeVal, descsV] at h ⊢; exact obs_unescapeM q ip m h
  | .nil, _ | .bool _, _ | .int _, _ | .float _, _ | .str _, _ | .expr _, _ | .templ _, _ | .lambda _, _ => by
    simp [unescapeVal, descsV]
/-- one child: same descendants, own value unescaped -/
theorem obs_unescapeC (q ip) : (n : Node E) → NoEscapedKeys (descs n) →
    (descs (unescapeChild q ip n)).map obs = (descs n).map (unescObs q ip) ∧
    head (unescapeChild q ip n).val = unescHead q ip (head n.val)
  | .mk (.str x) s a, _ => by
    simp only [unescapeChild]
    split <;> simp_all [descs, descsV, Node.new, Node.val, head, unescHead]
  | .mk (.map m) s a, h => by
    simp only [descs, descsV] at h
    have ih := obs_unescapeM q ip m h
    have hk : m.any (fun e => decide (unescapeKey e.1 ≠ e.1)) = false := by
      rw [List.any_eq_false]
      intro e he
      have : unescapeKey e.1 = e.1 := keys_in_descsM m h e he
      simp [this]
    simp only [unescapeChild, hk]
    simpa [descs, descsV, Node.val, head, unescHead] using ih
  | .mk (.list l) s a, h => by
    simp only [descs, descsV] at h
    have ih := obs_unescapeL q ip l h
    simpa [unescapeChild, unescapeVal, descs, descsV, Node.val, head, unescHead] using ih
  | .mk .nil _ _, _ | .mk (.bool _) _ _, _ | .mk (.int _) _ _, _ | .mk (.float _) _ _, _
  | .mk (.expr _) _ _, _ | .mk (.templ _) _ _, _ | .mk (.lambda _) _ _, _ => by
    simp [unescapeChild, unescapeVal, descs, descsV, Node.val, head, unescHead]
theorem obs_unescapeL (q ip) : (l : List (Node E)) → NoEscapedKeys (descsL l) →
    (descsL (unescapeList q ip l)).map obs = (descsL l).map (unescObs q ip)
  | [], _ => by simp [unescapeList, descsL]
  | e :: r, h => by
    simp only [descsL, List.cons_append] at h
    have h1 := NoEscapedKeys.append (a := [_]) h
    have h2 := NoEscapedKeys.append h1.2
    have ih1 := obs_unescapeC q ip e h2.1.under
    have ih2 := obs_unescapeL q ip r h2.2
    simp only [unescapeList, descsL, List.map_cons, List.map_append, ih2, List.cons_append]
    rw [obs_under _ _ _ (unescHead q ip) (fun _ => rfl) _ _ rfl ih1.1]
    simp [obs, unescObs, Desc.keys, ih1.2, Desc.under]
theorem obs_unescapeM (q ip) : (m : List (String × Node E)) → NoEscapedKeys (descsM m) →
    (descsM (unescapeMap q ip m)).map obs = (descsM m).map (unescObs q ip)
  | [], _ => by simp [unescapeMap, descsM]
  | (k, e) :: r, h => by
    simp only [descsM, List.cons_append] at h
    have h1 := NoEscapedKeys.append (a := [_]) h
    have h2 := NoEscapedKeys.append h1.2
    have ih1 := obs_unescapeC q ip e h2.1.under
    have ih2 := obs_unescapeM q ip r h2.2
    simp only [unescapeMap, descsM, List.map_cons, List.map_append, ih2, List.cons_append]
    rw [obs_under _ _ _ (unescHead q ip) (fun _ => rfl) _ _ rfl ih1.1]
    simp [obs, unescObs, Desc.keys, ih1.2, Desc.under]
theorem keys_in_descsM : (m : List (String × Node E)) → NoEscapedKeys (descsM m) →
    ∀ e ∈ m, unescapeKey e.1 = e.1
  | [], _ => by simp
  | (k, e) :: r, h => by
    simp only [descsM, List.cons_append] at h
    have h1 := NoEscapedKeys.append (a := [_]) h
    have h2 := NoEscapedKeys.append h1.2
    intro x hx
    rcases List.mem_cons.1 hx with rfl | hx
    · exact h1.1 _ (List.mem_singleton.2 rfl) k (by simp [Desc.keys])
    · exact keys_in_descsM r h2.2 x hx
end

/-- C13 (documents without escaped merge keys): unescaping the output keeps the
complete structure and applies the string unescaping to every string below the
root, once. -/
theorem unescape_document (q : List Char → List Char) (ip : Bool) (n : Node E)
    (h : NoEscapedKeys (descs n)) :
    (descs (unescapeDoc q ip n)).map (fun d => (Desc.keys d, d.value)) =
      (descs n).map (fun d => (Desc.keys d, unescHead q ip d.value)) := by
  cases n with
  | mk v s a =>
    simp only [unescapeDoc, descs] at h ⊢
    exact obs_unescape q ip v h

/-- C13, restriction found: a document that itself is an escaped string, or a root
level map with an escaped merge key is emitted with the escape. -/
theorem root_not_unescaped :
    unescapeDoc id false (.mk (.str "((!a))") "" {} : Node Empty) = .mk (.str "((!a))") "" {} ∧
    unescapeDoc id false (.mk (.map [("<<!", .mk (.int 1) "" {})]) "" {} : Node Empty)
      = .mk (.map [("<<!", .mk (.int 1) "" {})]) "" {} ∧
    unescapeDoc id false (.mk (.map [("a", .mk (.map [("<<!", .mk (.int 1) "" {})]) "" {})]) "" {} : Node Empty)
      = .mk (.map [("a", .mk (.map [("<<", .mk (.int 1) "" {})]) "" {})]) "" {} := by
  refine ⟨rfl, rfl, rfl⟩

example : unescapeDoc id false
    (.mk (.map [("a", .mk (.list [.mk (.str "((!x))") "" {}]) "" {})]) "" {} : Node Empty) =
    .mk (.map [("a", .mk (.list [.mk (.str "((x))") "" {}]) "" {})]) "" {} := by rfl

end Spiff.Props
