import Verif.Model.Cleanup
import Verif.Spec.Tree
/-
C10 (temporary/local nodes never reach the output), C11 (state extraction),
C12 (idempotence and commutation of the discarding passes).
-/
namespace Spiff.Props
open Spiff.Spec
variable {E : Type}

/-- clean-up function keeping exactly the nodes whose annotation satisfies `keep` -/
def keepFn (keep : Ann → Bool) : CleanFn Unit := fun _ a => if keep a then some (a, ()) else none

theorem discardTemporary_eq :
    discardTemporary = keepFn (fun a => !(a.flags.temporary || a.flags.loc)) := by
  funext t a
  cases h1 : a.flags.temporary <;> cases h2 : a.flags.loc <;> simp [discardTemporary, keepFn, h1, h2]

theorem discardLocal_eq : discardLocal = keepFn (fun a => !a.flags.loc) := by
  funext t a; cases h2 : a.flags.loc <;> simp [discardLocal, keepFn, h2]

/-- all annotations on the way to (and of) the node satisfy `keep` -/
def kept (keep : Ann → Bool) (d : Desc E) : Bool := d.chain.all (fun x => keep x.2)

theorem reann_self (n : Node E) : n.reann n.ann = n := by cases n; rfl
theorem cleanup_ann {T} (f : CleanFn T) (t : T) (n : Node E) : (cleanup f t n).ann = n.ann := by
  cases n; simp [cleanup, Node.ann]
theorem cleanup_src {T} (f : CleanFn T) (t : T) (n : Node E) : (cleanup f t n).src = n.src := by
  cases n; simp [cleanup, Node.src]
theorem cleanup_reann_self {T} (f : CleanFn T) (t : T) (n : Node E) :
    (cleanup f t n).reann n.ann = cleanup f t n := by
  cases n; simp [cleanup, Node.reann, Node.ann]
theorem head_cleanup {T} (f : CleanFn T) (t : T) (n : Node E) :
    head (cleanup f t n).val = head n.val := by
  cases n with | mk v s a => cases v <;> simp [cleanup, cleanupVal, Node.val, head]

theorem cleanupList_some {T} {f : CleanFn T} {t : T} {e : Node E} {r : List (Node E)} {a : Ann} {t' : T}
    (h : f t e.ann = some (a, t')) :
    cleanupList f t (e :: r) = (cleanup f t' e).reann a :: cleanupList f t r := by
  simp only [cleanupList, h]
theorem cleanupList_none {T} {f : CleanFn T} {t : T} {e : Node E} {r : List (Node E)}
    (h : f t e.ann = none) : cleanupList f t (e :: r) = cleanupList f t r := by
  simp only [cleanupList, h]
theorem cleanupMap_some {T} {f : CleanFn T} {t : T} {k : String} {e : Node E} {r : List (String × Node E)}
    {a : Ann} {t' : T} (h : f t e.ann = some (a, t')) :
    cleanupMap f t ((k, e) :: r) = (k, (cleanup f t' e).reann a) :: cleanupMap f t r := by
  simp only [cleanupMap, h]
theorem cleanupMap_none {T} {f : CleanFn T} {t : T} {k : String} {e : Node E} {r : List (String × Node E)}
    (h : f t e.ann = none) : cleanupMap f t ((k, e) :: r) = cleanupMap f t r := by
  simp only [cleanupMap, h]
theorem keepFn_pos {keep : Ann → Bool} {a : Ann} (h : keep a = true) : keepFn keep () a = some (a, ()) := by
  simp [keepFn, h]
theorem keepFn_neg {keep : Ann → Bool} {a : Ann} (h : keep a = false) : keepFn keep () a = none := by
  simp [keepFn, h]
theorem dns_all (a : Ann) : discardNonState true a = some (a, true) := by simp [discardNonState]
theorem dns_pos {a : Ann} (h : a.flags.state = true) : discardNonState false a = some (a, true) := by
  simp [discardNonState, h]
theorem dns_neg {a : Ann} (h : a.flags.state = false) : discardNonState false a = none := by
  simp [discardNonState, h]

theorem filter_under (keep : Ann → Bool) (x : Step × Ann) (l : List (Desc E)) :
    (l.map (Desc.under x)).filter (kept keep) =
      if keep x.2 then (l.filter (kept keep)).map (Desc.under x) else [] := by
  have hu : ∀ d : Desc E, kept keep (Desc.under x d) = (keep x.2 && kept keep d) := by
    intro d; simp [kept, Desc.under]
  rw [List.filter_map]
  cases h : keep x.2
  · have : (kept keep ∘ Desc.under x : Desc E → Bool) = fun _ => false := by
      funext d; simp [hu, h]
    simp [this]
  · have : (kept keep ∘ Desc.under x : Desc E → Bool) = kept keep := by
      funext d; simp [hu, h]
    simp [this]

mutual
theorem descs_keep (keep : Ann → Bool) : (n : Node E) →
    descs (cleanup (keepFn keep) () n) = (descs n).filter (kept keep)
  | .mk v s a => by simp only [cleanup, descs]; exact descsV_keep keep v
theorem descsV_keep (keep : Ann → Bool) : (v : Val E) →
    descsV (cleanupVal (keepFn keep) () v) = (descsV v).filter (kept keep)
  | .list l => by simp only [cleanupVal, descsV]; exact descsL_keep keep l
  | .map m => by simp only [cleanupVal, descsV]; exact descsM_keep keep m
  | .nil | .bool _ | .int _ | .float _ | .str _ | .expr _ | .templ _ | .lambda _ => by
    simp [cleanupVal, descsV]
theorem descsL_keep (keep : Ann → Bool) : (l : List (Node E)) →
    descsL (cleanupList (keepFn keep) () l) = (descsL l).filter (kept keep)
  | [] => by simp [cleanupList, descsL]
  | e :: r => by
    have ih1 := descs_keep keep e
    have ih2 := descsL_keep keep r
    cases h : keep e.ann
    · rw [cleanupList_none (keepFn_neg h), ih2]
      simp [descsL, List.filter_cons, List.filter_append, filter_under, h, kept]
    · rw [cleanupList_some (keepFn_pos h), cleanup_reann_self]
      simp only [descsL]
      rw [cleanup_ann, cleanup_src, head_cleanup, ih1, ih2]
      simp [List.filter_cons, List.filter_append, filter_under, h, kept]
theorem descsM_keep (keep : Ann → Bool) : (m : List (String × Node E)) →
    descsM (cleanupMap (keepFn keep) () m) = (descsM m).filter (kept keep)
  | [] => by simp [cleanupMap, descsM]
  | (k, e) :: r => by
    have ih1 := descs_keep keep e
    have ih2 := descsM_keep keep r
    cases h : keep e.ann
    · rw [cleanupMap_none (keepFn_neg h), ih2]
      simp [descsM, List.filter_cons, List.filter_append, filter_under, h, kept]
    · rw [cleanupMap_some (keepFn_pos h), cleanup_reann_self]
      simp only [descsM]
      rw [cleanup_ann, cleanup_src, head_cleanup, ih1, ih2]
      simp [List.filter_cons, List.filter_append, filter_under, h, kept]
end

/-- C10 (final output): the descendants of the cleaned document are exactly those
descendants of the processed document for which neither the node itself nor any
node on the way to it is temporary or local; their order, keys, annotations and
values are unchanged. -/
theorem output_without_temporary (n : Node E) :
    descs (cleanup discardTemporary () n) =
      (descs n).filter (fun d => d.chain.all (fun x => !(x.2.flags.temporary || x.2.flags.loc))) := by
  rw [discardTemporary_eq]; exact descs_keep _ n

/-- C10: hence no descendant of the output is temporary or local. -/
theorem output_no_temporary (n : Node E) (d : Desc E) (h : d ∈ descs (cleanup discardTemporary () n)) :
    ∀ x ∈ d.chain, x.2.flags.temporary = false ∧ x.2.flags.loc = false := by
  rw [output_without_temporary] at h
  have := (List.mem_filter.1 h).2
  intro x hx
  have hx' := List.all_eq_true.1 this x hx
  simpa using hx'

/-- C10 (processed stubs): only local nodes are lost, so temporary nodes of a
stub are still available for merging. -/
theorem stub_without_local (n : Node E) :
    descs (cleanup discardLocal () n) =
      (descs n).filter (fun d => d.chain.all (fun x => !x.2.flags.loc)) := by
  rw [discardLocal_eq]; exact descs_keep _ n

/-- C10: the root keeps source and annotation. -/
theorem cleanup_root {T} (f : CleanFn T) (t : T) (n : Node E) :
    (cleanup f t n).ann = n.ann ∧ (cleanup f t n).src = n.src ∧
    head (cleanup f t n).val = head n.val :=
  ⟨cleanup_ann f t n, cleanup_src f t n, head_cleanup f t n⟩

/-! ### C11 -/

mutual
theorem cleanup_keepAll : (n : Node E) → cleanup discardNonState true n = n
  | .mk v s a => by simp only [cleanup]; rw [cleanupVal_keepAll v]
theorem cleanupVal_keepAll : (v : Val E) → cleanupVal discardNonState true v = v
  | .list l => by simp only [cleanupVal]; rw [cleanupList_keepAll l]
  | .map m => by simp only [cleanupVal]; rw [cleanupMap_keepAll m]
  | .nil | .bool _ | .int _ | .float _ | .str _ | .expr _ | .templ _ | .lambda _ => by
    simp [cleanupVal]
theorem cleanupList_keepAll : (l : List (Node E)) → cleanupList discardNonState true l = l
  | [] => rfl
  | e :: r => by
    rw [cleanupList_some (dns_all _), cleanup_keepAll e, cleanupList_keepAll r, reann_self]
theorem cleanupMap_keepAll : (m : List (String × Node E)) → cleanupMap discardNonState true m = m
  | [] => rfl
  | (k, e) :: r => by
    rw [cleanupMap_some (dns_all _), cleanup_keepAll e, cleanupMap_keepAll r, reann_self]
end

/-- C11 (documents are maps): the state document has exactly the top level
fields marked as state, each with its complete, unchanged sub tree. A
state node below an unmarked node is lost, see `nested_state_lost`. -/
theorem state_document (m : List (String × Node E)) (s : String) (a : Ann) :
    determineState (.mk (.map m) s a) = .mk (.map (m.filter (fun e => e.2.ann.flags.state))) s a := by
  have : ∀ m : List (String × Node E), cleanupMap discardNonState false m =
      m.filter (fun e => e.2.ann.flags.state) := by
    intro m
    induction m with
    | nil => rfl
    | cons e r ih =>
      obtain ⟨k, e⟩ := e
      cases h : e.ann.flags.state
      · rw [cleanupMap_none (dns_neg h), ih]; simp [h]
      · rw [cleanupMap_some (dns_pos h), ih]; simp [h, cleanup_keepAll, reann_self]
  simp [determineState, cleanup, cleanupVal, this]

/-- C11 (documents are lists) -/
theorem state_document_list (l : List (Node E)) (s : String) (a : Ann) :
    determineState (.mk (.list l) s a) = .mk (.list (l.filter (fun e => e.ann.flags.state))) s a := by
  have : ∀ l : List (Node E), cleanupList discardNonState false l =
      l.filter (fun e => e.ann.flags.state) := by
    intro l
    induction l with
    | nil => rfl
    | cons e r ih =>
      cases h : e.ann.flags.state
      · rw [cleanupList_none (dns_neg h), ih]; simp [h]
      · rw [cleanupList_some (dns_pos h), ih]; simp [h, cleanup_keepAll, reann_self]
  simp [determineState, cleanup, cleanupVal, this]

theorem descsM_filter (m : List (String × Node E)) :
    descsM (m.filter (fun e => e.2.ann.flags.state)) =
      (descsM m).filter (fun d => d.chain.head?.any (fun x => x.2.flags.state)) := by
  induction m with
  | nil => rfl
  | cons e r ih =>
    obtain ⟨k, e⟩ := e
    have hu : ∀ l : List (Desc E), (l.map (Desc.under (.field k, e.ann))).filter
        (fun d => d.chain.head?.any (fun x => x.2.flags.state)) =
        if e.ann.flags.state then l.map (Desc.under (.field k, e.ann)) else [] := by
      intro l
      induction l with
      | nil => simp
      | cons d r ih => cases h : e.ann.flags.state <;> simp [Desc.under, h] <;> simp_all [Desc.under]
    cases h : e.ann.flags.state
    · rw [List.filter_cons_of_neg (by simp [h])]
      simp only [descsM, List.cons_append]
      rw [List.filter_cons_of_neg (by simp [h]), List.filter_append, hu, ih]
      simp [h]
    · rw [List.filter_cons_of_pos (by simp [h])]
      simp only [descsM, List.cons_append]
      rw [List.filter_cons_of_pos (by simp [h]), List.filter_append, hu, ih]
      simp [h]

theorem descsL_filter (l : List (Node E)) :
    descsL (l.filter (fun e => e.ann.flags.state)) =
      (descsL l).filter (fun d => d.chain.head?.any (fun x => x.2.flags.state)) := by
  induction l with
  | nil => rfl
  | cons e r ih =>
    have hu : ∀ l : List (Desc E), (l.map (Desc.under (.entry, e.ann))).filter
        (fun d => d.chain.head?.any (fun x => x.2.flags.state)) =
        if e.ann.flags.state then l.map (Desc.under (.entry, e.ann)) else [] := by
      intro l
      induction l with
      | nil => simp
      | cons d r ih => cases h : e.ann.flags.state <;> simp [Desc.under, h] <;> simp_all [Desc.under]
    cases h : e.ann.flags.state
    · rw [List.filter_cons_of_neg (by simp [h])]
      simp only [descsL, List.cons_append]
      rw [List.filter_cons_of_neg (by simp [h]), List.filter_append, hu, ih]
      simp [h]
    · rw [List.filter_cons_of_pos (by simp [h])]
      simp only [descsL, List.cons_append]
      rw [List.filter_cons_of_pos (by simp [h]), List.filter_append, hu, ih]
      simp [h]

/-- C11: for every document the descendants of the state document are exactly those descendants
whose outermost node below the root (the first one of the chain) is marked as state. -/
theorem state_descendants (n : Node E) :
    descs (determineState n) = (descs n).filter (fun d => d.chain.head?.any (fun x => x.2.flags.state)) := by
  cases n with
  | mk v s a =>
    cases v with
    | list l => rw [state_document_list]; exact descsL_filter l
    | map m => rw [state_document]; exact descsM_filter m
    | _ => rfl

/-- C11: the unrestricted property fails: a node marked as state below a node
that is not marked does not reach the state document. -/
theorem nested_state_lost :
    let leaf : Node Empty := .mk (.int 1) "" { flags := { state := true } }
    let doc : Node Empty := .mk (.map [("a", .mk (.map [("b", leaf)]) "" {})]) "" {}
    (∃ d ∈ descs doc, d.chain.any (fun x => x.2.flags.state)) ∧ descs (determineState doc) = [] := by
  constructor
  · exact ⟨_, List.mem_cons_of_mem _ (List.mem_cons_self ..), rfl⟩
  · rfl

/-! ### C12 -/

mutual
theorem cleanup_keep_keep (p q : Ann → Bool) : (n : Node E) →
    cleanup (keepFn p) () (cleanup (keepFn q) () n) = cleanup (keepFn (fun a => q a && p a)) () n
  | .mk v s a => by simp only [cleanup]; rw [cleanupVal_keep_keep p q v]
theorem cleanupVal_keep_keep (p q : Ann → Bool) : (v : Val E) →
    cleanupVal (keepFn p) () (cleanupVal (keepFn q) () v) = cleanupVal (keepFn (fun a => q a && p a)) () v
  | .list l => by simp only [cleanupVal]; rw [cleanupList_keep_keep p q l]
  | .map m => by simp only [cleanupVal]; rw [cleanupMap_keep_keep p q m]
  | .nil | .bool _ | .int _ | .float _ | .str _ | .expr _ | .templ _ | .lambda _ => by
    simp [cleanupVal]
theorem cleanupList_keep_keep (p q : Ann → Bool) : (l : List (Node E)) →
    cleanupList (keepFn p) () (cleanupList (keepFn q) () l) = cleanupList (keepFn (fun a => q a && p a)) () l
  | [] => rfl
  | e :: r => by
    have h1 := cleanup_keep_keep p q e
    have h2 := cleanupList_keep_keep p q r
    have ha : (cleanup (keepFn q) () e).ann = e.ann := cleanup_ann ..
    cases hq : q e.ann
    · rw [cleanupList_none (keepFn_neg hq), cleanupList_none (keepFn_neg (by simp [hq])), h2]
    · rw [cleanupList_some (keepFn_pos hq), cleanup_reann_self]
      cases hp : p e.ann
      · rw [cleanupList_none (keepFn_neg (by rw [ha]; exact hp)), cleanupList_none (keepFn_neg (by simp [hp])), h2]
      · rw [cleanupList_some (keepFn_pos (by rw [ha]; exact hp)), cleanupList_some (keepFn_pos (by simp [hp, hq])), h1, h2, ha]
theorem cleanupMap_keep_keep (p q : Ann → Bool) : (m : List (String × Node E)) →
    cleanupMap (keepFn p) () (cleanupMap (keepFn q) () m) = cleanupMap (keepFn (fun a => q a && p a)) () m
  | [] => rfl
  | (k, e) :: r => by
    have h1 := cleanup_keep_keep p q e
    have h2 := cleanupMap_keep_keep p q r
    have ha : (cleanup (keepFn q) () e).ann = e.ann := cleanup_ann ..
    cases hq : q e.ann
    · rw [cleanupMap_none (keepFn_neg hq), cleanupMap_none (keepFn_neg (by simp [hq])), h2]
    · rw [cleanupMap_some (keepFn_pos hq), cleanup_reann_self]
      cases hp : p e.ann
      · rw [cleanupMap_none (keepFn_neg (by rw [ha]; exact hp)), cleanupMap_none (keepFn_neg (by simp [hp])), h2]
      · rw [cleanupMap_some (keepFn_pos (by rw [ha]; exact hp)), cleanupMap_some (keepFn_pos (by simp [hp, hq])), h1, h2, ha]
end

/-- C12: discarding temporary nodes twice is the same as doing it once. -/
theorem discardTemporary_idem (n : Node E) :
    cleanup discardTemporary () (cleanup discardTemporary () n) = cleanup discardTemporary () n := by
  rw [discardTemporary_eq, cleanup_keep_keep]; simp

/-- C12 for local nodes. -/
theorem discardLocal_idem (n : Node E) :
    cleanup discardLocal () (cleanup discardLocal () n) = cleanup discardLocal () n := by
  rw [discardLocal_eq, cleanup_keep_keep]; simp

/-- C12: the order of discarding local and temporary nodes is irrelevant, and the
former is subsumed by the latter. -/
theorem discard_comm (n : Node E) :
    cleanup discardTemporary () (cleanup discardLocal () n)
      = cleanup discardLocal () (cleanup discardTemporary () n) ∧
    cleanup discardLocal () (cleanup discardTemporary () n) = cleanup discardTemporary () n := by
  rw [discardTemporary_eq, discardLocal_eq, cleanup_keep_keep, cleanup_keep_keep]
  constructor
  · congr 2; funext a; cases a.flags.loc <;> cases a.flags.temporary <;> rfl
  · congr 2; funext a; cases a.flags.loc <;> cases a.flags.temporary <;> rfl

/-- C12: state extraction is idempotent. -/
theorem determineState_idem (m : List (String × Node E)) (s : String) (a : Ann) :
    determineState (determineState (.mk (.map m) s a)) = determineState (.mk (.map m) s a) := by
  rw [state_document, state_document, List.filter_filter]; simp

mutual
theorem cleanup_tags_idem : (n : Node E) →
    cleanup discardTags () (cleanup discardTags () n) = cleanup discardTags () n
  | .mk v s a => by simp only [cleanup]; rw [cleanupVal_tags_idem v]
theorem cleanupVal_tags_idem : (v : Val E) →
    cleanupVal discardTags () (cleanupVal discardTags () v) = cleanupVal discardTags () v
  | .list l => by simp only [cleanupVal]; rw [cleanupList_tags_idem l]
  | .map m => by simp only [cleanupVal]; rw [cleanupMap_tags_idem m]
  | .nil | .bool _ | .int _ | .float _ | .str _ | .expr _ | .templ _ | .lambda _ => by
    simp [cleanupVal]
theorem cleanupList_tags_idem : (l : List (Node E)) →
    cleanupList discardTags () (cleanupList discardTags () l) = cleanupList discardTags () l
  | [] => rfl
  | .mk v s a :: r => by
    have h1 := cleanupVal_tags_idem v
    have h2 := cleanupList_tags_idem r
    by_cases h : a.tag = "" <;>
      simp [cleanupList, discardTags, Node.ann, h, Node.reann, cleanup] <;>
      exact ⟨h1, h2⟩
theorem cleanupMap_tags_idem : (m : List (String × Node E)) →
    cleanupMap discardTags () (cleanupMap discardTags () m) = cleanupMap discardTags () m
  | [] => rfl
  | (k, .mk v s a) :: r => by
    have h1 := cleanupVal_tags_idem v
    have h2 := cleanupMap_tags_idem r
    by_cases h : a.tag = "" <;>
      simp [cleanupMap, discardTags, Node.ann, h, Node.reann, cleanup] <;>
      exact ⟨h1, h2⟩
end

/-- C12: dropping tags twice is the same as once. -/
theorem discardTags_idem (n : Node E) :
    cleanup discardTags () (cleanup discardTags () n) = cleanup discardTags () n :=
  cleanup_tags_idem n

/-! ### test cases (hypotheses and effects are not vacuous) -/
section
def tmpLeaf : Node Empty := .mk (.int 1) "" { flags := { temporary := true } }
def okLeaf : Node Empty := .mk (.str "x") "" {}
def sampleDoc : Node Empty :=
  .mk (.map [("a", .mk (.list [tmpLeaf, okLeaf]) "" {}), ("b", tmpLeaf)]) "" {}
example : cleanup discardTemporary () sampleDoc =
  .mk (.map [("a", .mk (.list [okLeaf]) "" {})]) "" {} := rfl
example : (descs sampleDoc).length = 4 ∧ (descs (cleanup discardTemporary () sampleDoc)).length = 2 := by decide
end

end Spiff.Props
