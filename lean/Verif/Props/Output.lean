import Verif.Props.EscapeKeys
/-
C10 for the complete processing of a merge: discarding and unescaping together.
-/
namespace Spiff.Props
open Spiff.Spec
variable {E : Type}

/-- all annotations on the way to `d` (inclusive) satisfy `g` -/
abbrev AllAnn (g : Ann → Prop) (d : Desc E) : Prop := ∀ x ∈ d.chain, g x.2

theorem allAnn_step (g : Ann → Prop) (st : Step) (e : Node E) :
    (∀ d ∈ (⟨[(st, e.ann)], e.src, head e.val⟩ : Desc E) :: (descs e).map (Desc.under (st, e.ann)), AllAnn g d) ↔
      g e.ann ∧ ∀ d ∈ descs e, AllAnn g d := by
  constructor
  · intro h
    have h0 : g e.ann := h _ (List.mem_cons_self ..) (st, e.ann) (by simp)
    exact ⟨h0, fun d hd x hx => h (Desc.under (st, e.ann) d) (List.mem_cons_of_mem _ (List.mem_map_of_mem hd)) x
      (by simp [Desc.under, hx])⟩
  · rintro ⟨h0, h1⟩ d hd
    rcases List.mem_cons.1 hd with rfl | hd
    · intro x hx; simp at hx; subst hx; exact h0
    · obtain ⟨d', hd', rfl⟩ := List.mem_map.1 hd
      intro x hx
      simp only [Desc.under, List.mem_cons] at hx
      rcases hx with rfl | hx
      · exact h0
      · exact h1 d' hd' x hx

theorem allAnn_list (g : Ann → Prop) : (l : List (Node E)) →
    ((∀ d ∈ descsL l, AllAnn g d) ↔ ∀ e ∈ l, g e.ann ∧ ∀ d ∈ descs e, AllAnn g d)
  | [] => by simp [descsL]
  | e :: r => by
    rw [descsL, List.forall_mem_append, allAnn_step g .entry e, allAnn_list g r, List.forall_mem_cons]

theorem allAnn_map (g : Ann → Prop) : (m : List (String × Node E)) →
    ((∀ d ∈ descsM m, AllAnn g d) ↔ ∀ e ∈ m, g e.2.ann ∧ ∀ d ∈ descs e.2, AllAnn g d)
  | [] => by simp [descsM]
  | (k, e) :: r => by
    rw [descsM, List.forall_mem_append, allAnn_step g (.field k) e, allAnn_map g r, List.forall_mem_cons]

theorem mem_foldl_rekey (f : String → String) (es acc : List (String × Node E)) (P : Node E → Prop)
    (h1 : ∀ e ∈ es, P e.2) (h2 : ∀ e ∈ acc, P e.2) : ∀ e ∈ es.foldl (fun acc e => mset acc (f e.1) e.2) acc, P e.2 := by
  induction es generalizing acc with
  | nil => exact h2
  | cons x r ih =>
    rw [List.foldl_cons]
    refine ih _ (fun e he => h1 e (List.mem_cons_of_mem _ he)) ?_
    intro e he
    rcases mem_mset he with h | rfl
    · exact h2 e h
    · exact h1 x (List.mem_cons_self ..)

mutual
theorem allAnn_unescape (q ip) (g : Ann → Prop) (hg : g {}) : (v : Val E) → (∀ d ∈ descsV v, AllAnn g d) →
    ∀ d ∈ descsV (unescapeVal q ip v), AllAnn g d
  | .list l, h => by
    simp only [unescapeVal, descsV] at h ⊢
    exact (allAnn_list g _).2 (allAnn_unescapeL q ip g hg l ((allAnn_list g l).1 h))
  | .map m, h => by
    simp only [unescapeVal, descsV] at h ⊢
    exact (allAnn_map g _).2 (allAnn_unescapeM q ip g hg m ((allAnn_map g m).1 h))
  | .nil, _ | .bool _, _ | .int _, _ | .float _, _ | .str _, _ | .expr _, _ | .templ _, _ | .lambda _, _ => by
    simp [unescapeVal, descsV]
theorem allAnn_unescapeC (q ip) (g : Ann → Prop) (hg : g {}) : (n : Node E) → (g n.ann ∧ ∀ d ∈ descs n, AllAnn g d) →
    g (unescapeChild q ip n).ann ∧ ∀ d ∈ descs (unescapeChild q ip n), AllAnn g d
  | .mk (.str x) s a, h => by
    simp only [unescapeChild]
    split
    · exact h
    · exact ⟨hg, by simp [Node.new, descs, descsV]⟩
  | .mk (.map m) s a, h => by
    have ih := allAnn_unescapeM q ip g hg m ((allAnn_map g m).1 (by simpa only [descs, descsV] using h.2))
    simp only [unescapeChild]
    split
    · refine ⟨hg, ?_⟩
      simp only [Node.new, descs, descsV]
      refine (allAnn_map g _).2 ?_
      exact mem_foldl_rekey unescapeKey _ [] (fun n => g n.ann ∧ ∀ d ∈ descs n, AllAnn g d) ih (by simp)
    · refine ⟨h.1, ?_⟩
      simp only [descs, descsV]
      exact (allAnn_map g _).2 ih
  | .mk (.list l) s a, h => by
    have ih := allAnn_unescapeL q ip g hg l ((allAnn_list g l).1 (by simpa only [descs, descsV] using h.2))
    refine ⟨h.1, ?_⟩
    simp only [unescapeChild, unescapeVal, descs, descsV]
    exact (allAnn_list g _).2 ih
  | .mk .nil _ _, h | .mk (.bool _) _ _, h | .mk (.int _) _ _, h | .mk (.float _) _ _, h
  | .mk (.expr _) _ _, h | .mk (.templ _) _ _, h | .mk (.lambda _) _ _, h => by
    refine ⟨h.1, ?_⟩
    simp [unescapeChild, unescapeVal, descs, descsV]
theorem allAnn_unescapeL (q ip) (g : Ann → Prop) (hg : g {}) : (l : List (Node E)) → (∀ e ∈ l, g e.ann ∧ ∀ d ∈ descs e, AllAnn g d) →
    ∀ e ∈ unescapeList q ip l, g e.ann ∧ ∀ d ∈ descs e, AllAnn g d
  | [], _ => by simp [unescapeList]
  | e :: r, h => by
    simp only [unescapeList, List.forall_mem_cons] at h ⊢
    exact ⟨allAnn_unescapeC q ip g hg e h.1, allAnn_unescapeL q ip g hg r h.2⟩
theorem allAnn_unescapeM (q ip) (g : Ann → Prop) (hg : g {}) : (m : List (String × Node E)) →
    (∀ e ∈ m, g e.2.ann ∧ ∀ d ∈ descs e.2, AllAnn g d) → ∀ e ∈ unescapeMap q ip m, g e.2.ann ∧ ∀ d ∈ descs e.2, AllAnn g d
  | [], _ => by simp [unescapeMap]
  | (k, e) :: r, h => by
    simp only [unescapeMap, List.forall_mem_cons] at h ⊢
    exact ⟨allAnn_unescapeC q ip g hg e h.1, allAnn_unescapeM q ip g hg r h.2⟩
end

/-- C10: whatever the processing of the documents does, a successful merge without the option to preserve temporary nodes
delivers a document without any temporary or local node below the root. -/
theorem merge_output_no_temporary (q : List Char → List Char) (ip : Bool) (fl : NestedFlow E) (t : Node E) (opts : Options)
    (stubs : List (Node E)) (out : Node E) (ho : opts.preserveTemporary = false)
    (h : cascade q ip fl t opts stubs = .ok (out, none)) :
    ∀ d ∈ descs out, ∀ x ∈ d.chain, x.2.flags.temporary = false ∧ x.2.flags.loc = false := by
  unfold cascade at h
  split at h
  · cases h
  · next prepared _ =>
    injection h with h
    unfold applyTemplate at h
    split at h
    · cases h
    · next r _ =>
      simp only [ho, Prod.mk.injEq, and_true] at h
      subst h
      have h1 := output_no_temporary r
      by_cases he : opts.preserveEscapes = true
      · simpa only [he, if_true, if_false, Bool.false_eq_true] using h1
      · simp only [he, if_false, Bool.false_eq_true]
        intro d hd
        cases hc : cleanup discardTemporary () r with
        | mk v s a =>
          rw [hc] at hd h1
          simp only [unescapeDoc, descs] at hd h1
          exact allAnn_unescape q ip (fun a => a.flags.temporary = false ∧ a.flags.loc = false) ⟨rfl, rfl⟩ v h1 d hd

/-- C10: every node of the processed document none of whose ancestors (and itself) is temporary or local reaches the output: with
escapes preserved the output is exactly the document without the others. -/
theorem merge_output_exact (q : List Char → List Char) (ip : Bool) (fl : NestedFlow E) (t : Node E) (opts : Options)
    (stubs prepared : List (Node E)) (r out : Node E) (ho : opts.preserveTemporary = false) (he : opts.preserveEscapes = true)
    (hp : prepareStubs fl opts.isPartial stubs = .ok prepared) (hf : fl t prepared = (r, none))
    (h : cascade q ip fl t opts stubs = .ok (out, none)) :
    descs out = (descs r).filter (fun d => d.chain.all (fun x => !(x.2.flags.temporary || x.2.flags.loc))) := by
  have : out = cleanup discardTemporary () r := by
    simp [cascade, hp, applyTemplate, hf, ho, he] at h
    exact h.symm
  rw [this, output_without_temporary]

example : ∃ out, cascade id false countFlow (.mk (.map [("a", okLeaf)]) "" {} : Node Empty) {} [okLeaf] = .ok (out, none) := ⟨_, rfl⟩

end Spiff.Props
