import Verif.Props.ReorderEval
import Verif.Lemmas.Reorder9
import Verif.Lemmas.ReorderFns
import Verif.Props.Alternatives
import Verif.Props.Fixpoint
import Verif.Lemmas.Mono
/-
C82: the order of the fields of maps does not matter. Whole merges.
-/
namespace Spiff
open Spec
variable {E : Type}

theorem nestedEnv_same {ss ss' : List (Node E)} (hs : List.Forall₂ Same ss ss') (src : String) : SameEnv (nestedEnv ss src) (nestedEnv ss' src) :=
  ⟨.nil, rfl, hs, rfl, rfl, rfl, rfl, .nil⟩

/-- two ways of processing documents that agree up to the order of fields -/
def DocSame (fl fl' : DocFlow E) : Prop := ∀ n n' ss ss', Same n n' → List.Forall₂ Same ss ss' →
  Delivers (fun x y => Same x.1 y.1 ∧ x.2 = y.2) (fl n ss) (fl' n' ss')

theorem nestedFlow_same [DecidableEq E] {L : Lang E} (hL : OrderFree L) (fuel passes : Nat) : DocSame (nestedFlowC L fuel passes) (nestedFlow L fuel passes) := by
  intro n n' ss ss' hn hs
  unfold nestedFlowC nestedFlow
  rw [← hn.src]
  exact yields_map (flowLoop_same hL fuel (nestedEnv_same hs _) hn true passes hn) (fun a b hab => ⟨hab, unresolved_isEmpty_same L hab⟩)

theorem nestedFlowC_same [DecidableEq E] {L : Lang E} (hL : OrderFree L) (fuel passes : Nat) : DocSame (nestedFlowC L fuel passes) (nestedFlowC L fuel passes) := by
  intro n n' ss ss' hn hs
  unfold nestedFlowC
  rw [← hn.src]
  exact yields_map (flowLoopC_same hL fuel (nestedEnv_same hs _) hn true passes hn) (fun a b hab => ⟨hab, unresolved_isEmpty_same L hab⟩)

theorem prepareRun_same {fl fl' : DocFlow E} (hf : DocSame fl fl') (p : Bool) {ss ss' : List (Node E)} (hs : List.Forall₂ Same ss ss') :
    Delivers (Both (List.Forall₂ Same)) (prepareRun fl p ss) (prepareRun fl' p ss') := by
  induction hs with
  | nil => exact yields_ok (show Both _ (some []) (some []) from .nil)
  | cons hab _ ih =>
    unfold prepareRun
    refine yields_bind ih (fun d d' hd => ?_)
    rcases both_some hd with ⟨rfl, rfl⟩ | ⟨x, y, rfl, rfl, hxy⟩
    · exact yields_ok trivial
    · refine yields_map (hf _ _ _ _ hab hxy) (fun r r' hr => ?_)
      rw [← hr.2]
      split
      · exact List.Forall₂.cons (cleanup_same _ _ _ hr.1 ()) hxy
      · trivial

theorem mergeRun_same {fl fl' : DocFlow E} (hf : DocSame fl fl') {u u' : Node E → Run (Node E)} (hu : ∀ n n', Same n n' → Delivers Same (u n) (u' n'))
    (opts : Options) {t t' : Node E} (ht : Same t t') {ss ss' : List (Node E)} (hs : List.Forall₂ Same ss ss') :
    Delivers (Both Same) (mergeRun fl u opts t ss) (mergeRun fl' u' opts t' ss') := by
  unfold mergeRun
  refine yields_bind (prepareRun_same hf _ hs) (fun d d' hd => ?_)
  rcases both_some hd with ⟨rfl, rfl⟩ | ⟨x, y, rfl, rfl, hxy⟩
  · exact yields_ok trivial
  · refine yields_bind (hf _ _ _ _ ht hxy) (fun r r' hr => ?_)
    rw [← hr.2]
    split
    · have hc : Same (if opts.preserveTemporary then r.1 else cleanup discardTemporary () r.1) (if opts.preserveTemporary then r'.1 else cleanup discardTemporary () r'.1) := by
        split
        · exact hr.1
        · exact cleanup_same _ _ _ hr.1 ()
      refine yields_map (H := Same) ?_ (fun a b hab => hab)
      split
      · exact yields_ok hc
      · exact hu _ _ hc
    · exact yields_ok trivial

/-- C82: the result of a merge does not depend on the order of the fields of the maps of the template and the stubs. If the
expressions do not depend on it, and the merge of the documents does not come to an ambiguous list entry or to keys that become
equal by unescaping, the merge of the documents with reordered fields has the same outcome: an error in both cases, or the
same document up to the order of fields. -/
theorem merge_field_order [DecidableEq E] {L : Lang E} (hL : OrderFree L) (fuel passes : Nat) (ip : Bool) (opts : Options) {t t' : Node E} (ht : Same t t')
    {ss ss' : List (Node E)} (hs : List.Forall₂ Same ss ss') {r : Option (Node E)} (h : mergeDocsC L fuel passes ip opts t ss = .ok r) :
    ∃ r', mergeDocs L fuel passes ip opts t' ss' = .ok r' ∧ Both Same r r' := by
  refine mergeRun_same (nestedFlow_same hL fuel passes) ?_ opts ht hs r h
  intro n n' hn
  split
  · exact yields_error
  · rename_i hc
    exact yields_ok (unescapeDoc_same _ _ hn (Bool.eq_false_iff.2 hc))

/-- Whether the merge comes to an ambiguous list entry or to clashing keys does not depend on the order of the fields, neither. -/
theorem merge_guard_order [DecidableEq E] {L : Lang E} (hL : OrderFree L) (fuel passes : Nat) (ip : Bool) (opts : Options) {t t' : Node E} (ht : Same t t')
    {ss ss' : List (Node E)} (hs : List.Forall₂ Same ss ss') {r : Option (Node E)} (h : mergeDocsC L fuel passes ip opts t ss = .ok r) :
    ∃ r', mergeDocsC L fuel passes ip opts t' ss' = .ok r' ∧ Both Same r r' := by
  refine mergeRun_same (nestedFlowC_same hL fuel passes) ?_ opts ht hs r h
  intro n n' hn
  rw [← escapeClash_same n n' hn]
  split
  · exact yields_error
  · rename_i hc
    exact yields_ok (unescapeDoc_same _ _ hn (Bool.eq_false_iff.2 hc))

/-- The documents printed are the same: the YAML events of both results are equal. -/
theorem merge_output_order [DecidableEq E] {L : Lang E} (hL : OrderFree L) (fuel passes : Nat) (ip : Bool) (opts : Options) {t t' : Node E} (ht : Same t t')
    {ss ss' : List (Node E)} (hs : List.Forall₂ Same ss ss') {r : Option (Node E)} (h : mergeDocsC L fuel passes ip opts t ss = .ok r) (X : YLib) (F : Nat → List Char) :
    ∃ r', mergeDocs L fuel passes ip opts t' ss' = .ok r' ∧ r.map (encode X F) = r'.map (encode X F) := by
  obtain ⟨r', h1, h2⟩ := merge_field_order hL fuel passes ip opts ht hs h
  refine ⟨r', h1, ?_⟩
  rcases both_some h2 with ⟨rfl, rfl⟩ | ⟨x, y, rfl, rfl, hxy⟩
  · rfl
  · simp only [Option.map_some, encode_same X F _ _ hxy]

/-- the same for the language of dynaml expressions -/
theorem dynaml_merge_field_order {X : EvLib} {R : RefLib Ex} (hP : OrderFreeParams X R) (base : Lang Ex) (fuel passes : Nat) (ip : Bool) (opts : Options) {t t' : Node Ex}
    (ht : Same t t') {ss ss' : List (Node Ex)} (hs : List.Forall₂ Same ss ss') {r : Option (Node Ex)}
    (h : mergeDocsC (exLang X R base) fuel passes ip opts t ss = .ok r) (Y : YLib) (F : Nat → List Char) :
    ∃ r', mergeDocs (exLang X R base) fuel passes ip opts t' ss' = .ok r' ∧ Both Same r r' ∧ r.map (encode Y F) = r'.map (encode Y F) := by
  obtain ⟨r', h1, h2⟩ := merge_field_order (eval_order_free hP base) fuel passes ip opts ht hs h
  obtain ⟨r'', h3, h4⟩ := merge_output_order (eval_order_free hP base) fuel passes ip opts ht hs h Y F
  rw [h1] at h3
  cases h3
  exact ⟨r', h1, h2, h4⟩

/-! ### the merge and the cascade of `Model/Cleanup` -/

theorem prepareRun_stubs (fl : NestedFlow E) (p : Bool) (ss : List (Node E)) :
    prepareRun (fun n ss => .ok ((fl n ss).1, (fl n ss).2.isNone)) p ss = .ok (match prepareStubs fl p ss with | .ok d => some d | .error _ => none) := by
  induction ss with
  | nil => rfl
  | cons s r ih =>
    simp only [prepareRun, prepareStubs, ih]
    cases prepareStubs fl p r with
    | error e => rfl
    | ok d =>
      rcases hxy : fl s d with ⟨x, y⟩
      cases y <;> cases p <;> simp [Except.bind, Except.map, hxy]

/-- For a total processing of documents the merge is the `cascade` of C01, C09 and C10. -/
theorem mergeRun_cascade (q : List Char → List Char) (ip : Bool) (fl : NestedFlow E) (opts : Options) (t : Node E) (ss : List (Node E)) :
    mergeRun (fun n ss => .ok ((fl n ss).1, (fl n ss).2.isNone)) (fun n => .ok (unescapeDoc q ip n)) opts t ss =
      .ok (match cascade q ip fl t opts ss with | .ok (r, none) => some r | _ => none) := by
  simp only [mergeRun, prepareRun_stubs, cascade]
  cases prepareStubs fl opts.isPartial ss with
  | error e => rfl
  | ok d =>
    simp only [Except.bind, applyTemplate]
    rcases hxy : fl t d with ⟨x, y⟩
    cases y with
    | some e => rfl
    | none =>
      simp only [Option.isNone_none, if_true]
      split <;> rfl

/-! ### the guarded merge is the merge -/

theorem flowC_LE (L : Lang E) (n : Nat) : RecLE (flowC L n) (flow L n) := by
  induction n with
  | zero => intro env x so et a ha; simp [flowC] at ha
  | succ n ih =>
    intro env x so et
    simp only [flowC, flow]
    split
    · intro a ha; simp at ha
    · exact flowStep_LE L ih env x so et

theorem flowLoopC_LE [DecidableEq E] (L : Lang E) (fuel : Nat) (env : Env E) (source : Node E) (so : Bool) (n : Nat) (r : Node E) :
    LE (flowLoopC L fuel env source so n r) (flowLoop L fuel env source so n r) := by
  induction n generalizing r with
  | zero => intro a ha; simp [flowLoopC] at ha
  | succ n ih =>
    rw [flowLoop_eq, flowLoopC]
    refine LE_bind (flowC_LE L fuel _ _ _ _) (fun x => ?_)
    split
    · exact LE_refl _
    · split
      · exact LE_refl _
      · exact ih x

theorem mergeRun_LE {fl fl' : DocFlow E} (hf : ∀ n ss, LE (fl n ss) (fl' n ss)) {u u' : Node E → Run (Node E)} (hu : ∀ n, LE (u n) (u' n))
    (opts : Options) (t : Node E) (ss : List (Node E)) : LE (mergeRun fl u opts t ss) (mergeRun fl' u' opts t ss) := by
  have hp : ∀ ss : List (Node E), LE (prepareRun fl opts.isPartial ss) (prepareRun fl' opts.isPartial ss) := by
    intro ss
    induction ss with
    | nil => exact LE_refl _
    | cons s r ih =>
      refine LE_bind ih (fun d => ?_)
      cases d with
      | none => exact LE_refl _
      | some d => exact LE_map (hf _ _)
  refine LE_bind (hp ss) (fun d => ?_)
  cases d with
  | none => exact LE_refl _
  | some d =>
    refine LE_bind (hf _ _) (fun r => ?_)
    split
    · refine LE_map ?_
      split
      · exact LE_refl _
      · exact hu _
    · exact LE_refl _

/-- If the guarded merge has an outcome, it is the outcome of the merge. -/
theorem guarded_merge [DecidableEq E] (L : Lang E) (fuel passes : Nat) (ip : Bool) (opts : Options) (t : Node E) (ss : List (Node E)) {r : Option (Node E)}
    (h : mergeDocsC L fuel passes ip opts t ss = .ok r) : mergeDocs L fuel passes ip opts t ss = .ok r := by
  refine mergeRun_LE (fun n ss => LE_map (flowLoopC_LE L _ _ _ _ _ _)) (fun n => ?_) opts t ss r h
  split
  · intro a ha; simp at ha
  · exact LE_refl _

/-! ### reordered fields -/

theorem goMaps_map {m : List (String × Node E)} {s : String} {a : Ann} (h : MapOK m) (hm : ∀ e ∈ m, GoMaps e.2) : GoMaps (.mk (.map m) s a) := by
  refine ⟨h, ?_⟩
  clear h
  induction m with
  | nil => trivial
  | cons e r ih => exact ⟨hm e (List.mem_cons_self ..), ih (fun e he => hm e (List.mem_cons_of_mem _ he))⟩

/-- A map with its fields in a different order is the same in the sense of the theorems. -/
theorem perm_same {m m' : List (String × Node E)} (hp : m.Perm m') (h : MapOK m) (hm : ∀ e ∈ m, GoMaps e.2) (s : String) (a : Ann) :
    Same (.mk (.map m) s a) (.mk (.map m') s a) := by
  have h' : MapOK m' := (hp.map Prod.fst).nodup_iff.1 h
  refine same_mk ?_
  refine ⟨h, h', fun k => ?_⟩
  cases hk : mget m k with
  | none =>
    have : mget m' k = none := by
      cases hk' : mget m' k with
      | none => rfl
      | some x =>
        have := mget_of_mem h (hp.mem_iff.2 (mget_some_mem hk'))
        rw [hk] at this; cases this
    rw [this]; trivial
  | some x =>
    have hx := mget_some_mem hk
    rw [mget_of_mem h' (hp.mem_iff.1 hx)]
    exact same_refl (hm _ hx)

/-! ### the parameters of the evaluation -/

/-- some builtin functions of dynaml (see Model/ListFns and Model/StrFns for the sources); `src` is the source name of the
created nodes -/
def orderFns (src : String) : List (String × (List (Val Ex) → Out (Val Ex))) :=
  [("length", funcLength), ("keys", funcKeys src), ("contains", funcContains), ("index", funcIndex), ("lastindex", funcLastIndex),
   ("element", funcElement), ("uniq", funcUniq), ("intersect", funcIntersect), ("compact", funcCompact), ("reverse", funcReverse),
   ("sort", funcSort), ("list_to_map", funcListToMap ""), ("makemap", funcMakemap src), ("deepmerge", funcDeepmerge),
   ("split", funcSplit src), ("join", funcJoin), ("trim", funcTrim src)]
def orderFn (name src : String) : Option (List (Val Ex) → Out (Val Ex)) := mget (orderFns src) name

theorem orderFn_of {name src : String} {f : List (Val Ex) → Out (Val Ex)} (h : orderFn name src = some f) : FnOF f := by
  have h := mget_some_mem h
  simp only [orderFns, List.mem_cons, List.not_mem_nil, Prod.mk.injEq, or_false] at h
  rcases h with ⟨_, rfl⟩ | ⟨_, rfl⟩ | ⟨_, rfl⟩ | ⟨_, rfl⟩ | ⟨_, rfl⟩ | ⟨_, rfl⟩ | ⟨_, rfl⟩ | ⟨_, rfl⟩ | ⟨_, rfl⟩ | ⟨_, rfl⟩ | ⟨_, rfl⟩ | ⟨_, rfl⟩ |
    ⟨_, rfl⟩ | ⟨_, rfl⟩ | ⟨_, rfl⟩ | ⟨_, rfl⟩ | ⟨_, rfl⟩
  exacts [length_of, keys_of _, contains_of, index_of, lastIndex_of, element_of, uniq_of, intersect_of, compact_of, reverse_of, sort_of, listToMap_of _,
    makemap_of _, deepmerge_of, split_of _, join_of, trim_of _]

/-- C82: these builtin functions do not depend on the order of the fields of their arguments. -/
theorem builtins_order_free {name src : String} {f : List (Val Ex) → Out (Val Ex)} (h : orderFn name src = some f) {vs vs' : List (Val Ex)}
    (hv : List.Forall₂ SameValue vs vs') : (∃ v v', f vs = .ok v ∧ f vs' = .ok v' ∧ SameValue v v') ∨ (f vs = f vs' ∧ ∀ v, f vs ≠ .ok v) := by
  have hv' : List.Forall₂ VSame vs vs' := hv.imp (fun _ _ => sameValue_iff.1)
  have key : OutSame (f vs) (f vs') := orderFn_of h _ _ hv'
  cases h1 : f vs <;> cases h2 : f vs' <;> rw [h1, h2] at key <;> simp only [OutSame] at key
  · exact .inl ⟨_, _, rfl, rfl, sameValue_iff.2 key⟩
  all_goals exact .inr ⟨rfl, by simp⟩

/-- the outcome of a builtin function with the initial info -/
def withInfo : Out (Val Ex) → Out (Val Ex × Info)
  | .ok v => .ok (v, {})
  | .err => .err
  | .undet => .undet
  | .panic => .panic

/-- a library with these functions -/
def orderLib : EvLib := { plainEvLib with
  fn := fun name => if (orderFn name "").isSome then
      some (fun vs src => match orderFn name src with
        | some f => withInfo (f vs)
        | none => .panic)
    else none }

/-- references of dynaml without `__ctx` and without resolvers for `_` -/
def orderRefs : RefLib Ex where
  ctl := false
  ctx := fun _ => Node.new .nil "__ctx"
  resolver := fun _ _ => .missing

/-- The hypothesis about the library and the references is met. -/
theorem orderLib_free : OrderFreeParams orderLib orderRefs where
  fn := by
    intro name f hf vs vs' src hv
    simp only [orderLib] at hf
    split at hf
    · cases hf
      cases ho : orderFn name src with
      | none => simp only [ho]; trivial
      | some g =>
        simp only [ho]
        rcases builtins_order_free ho hv with ⟨v, v', e, e', hvv⟩ | ⟨e, hn⟩
        · simp only [e, e']; exact ⟨hvv, rfl⟩
        · simp only [← e]
          cases hg : g vs <;> first | trivial | exact absurd hg (hn _)
    · cases hf
  ctx := fun _ _ _ => same_new (vsame_leaf rfl) _
  resolver := fun _ _ _ _ => trivial

/-! ### examples -/

/-- `b: (( length(m) ))` and a map `m`, and the same with the fields in another order -/
def orderDoc : Node Ex :=
  .mk (.map [("b", .mk (.expr (.call "length" [.ref ["m"]])) "f" {}), ("m", .mk (.map [("x", .mk (.int 1) "f" {}), ("y", .mk (.int 2) "f" {})]) "f" {})]) "f" {}
def orderDoc' : Node Ex :=
  .mk (.map [("m", .mk (.map [("y", .mk (.int 2) "f" {}), ("x", .mk (.int 1) "f" {})]) "f" {}), ("b", .mk (.expr (.call "length" [.ref ["m"]])) "f" {})]) "f" {}
/-- a stub with a value for `m.y`, and one for an unknown field -/
def orderStub : Node Ex := .mk (.map [("z", .mk (.int 5) "s" {}), ("m", .mk (.map [("y", .mk (.int 9) "s" {})]) "s" {})]) "s" {}
def orderStub' : Node Ex := .mk (.map [("m", .mk (.map [("y", .mk (.int 9) "s" {})]) "s" {}), ("z", .mk (.int 5) "s" {})]) "s" {}

/-- the rest of the language -/
def orderBase : Lang Ex where
  parse _ _ _ := none
  eval _ _ := (.nil, {}, false)
  marker _ := none
  simpleMerge _ := false
  directMerge _ := false
  print _ := ""
  requireTemplate _ := false
  quote s := s
  interpol := false

theorem orderDoc_same : Same orderDoc orderDoc' := by
  have hi : ∀ (i : Int) (s : String), Same (.mk (.int i) s {} : Node Ex) (.mk (.int i) s {}) := fun _ _ => same_mk (vsame_leaf rfl)
  have hm : Same (.mk (.map [("x", .mk (.int 1) "f" {}), ("y", .mk (.int 2) "f" {})]) "f" {} : Node Ex) (.mk (.map [("y", .mk (.int 2) "f" {}), ("x", .mk (.int 1) "f" {})]) "f" {}) :=
    perm_same (List.Perm.swap _ _ _) (by simp [MapOK, mkeys]) (by simp [GoMaps, GoMapsV]) _ _
  refine same_mk (show VSame (.map _) (.map _) from ⟨by simp [MapOK, mkeys], by simp [MapOK, mkeys], fun k => ?_⟩)
  simp only [mget]
  by_cases h1 : "b" = k
  · subst h1
    exact same_mk (vsame_leaf rfl)
  · by_cases h2 : "m" = k
    · subst h2; exact hm
    · simp [h1, h2, Both]

theorem orderStub_same : Same orderStub orderStub' :=
  perm_same (List.Perm.swap _ _ _) (by simp [MapOK, mkeys]) (by simp [GoMaps, GoMapsV, GoMapsM, MapOK, mkeys]) _ _

/-- the integer at a path of a result -/
def resultInt (r : Run (Option (Node Ex))) (p : List String) : Option Int :=
  match r with
  | .ok (some n) => match findR false true n p with
    | .found x => match x.val with
      | .int i => some i
      | _ => none
    | _ => none
  | _ => none

/-- The hypotheses are met: the merge of the example has the result `b: 2` and `m.y: 9`. -/
example : resultInt (mergeDocsC (exLang orderLib orderRefs orderBase) 10 10 false {} orderDoc [orderStub]) ["b"] = some 2 ∧
    resultInt (mergeDocsC (exLang orderLib orderRefs orderBase) 10 10 false {} orderDoc [orderStub]) ["m", "y"] = some 9 := by decide +kernel

/-! ### where the order matters -/

/-- a list with an entry with the fields `key:name` and `name` -/
def keyClash (m : List (String × Node Ex)) : Node Ex :=
  .mk (.map [("l", .mk (.list [.mk (.map m) "f" {}]) "f" {})]) "f" {}
def keyClashM : List (String × Node Ex) := [("key:name", .mk (.int 1) "f" {}), ("name", .mk (.int 2) "f" {})]

/-- C82: the value kept for an entry with the fields `key:name` and `name` depends on the order in which Go iterates over the map. -/
theorem key_marker_order : resultInt (mergeDocs (exLang orderLib orderRefs orderBase) 10 10 false {} (keyClash keyClashM) []) ["l", "[0]", "name"] = some 2 ∧
    resultInt (mergeDocs (exLang orderLib orderRefs orderBase) 10 10 false {} (keyClash keyClashM.reverse) []) ["l", "[0]", "name"] = some 1 ∧
    Same (keyClash keyClashM) (keyClash keyClashM.reverse) := by
  refine ⟨by decide +kernel, by decide +kernel, ?_⟩
  have h : Same (.mk (.map keyClashM) "f" {} : Node Ex) (.mk (.map keyClashM.reverse) "f" {}) :=
    perm_same (List.reverse_perm _).symm (by simp [keyClashM, MapOK, mkeys]) (by simp [keyClashM, GoMaps, GoMapsV]) _ _
  exact same_mk (show VSame (.map _) (.map _) from msame_single (same_mk (show VSame (.list _) (.list _) from .cons h .nil)) "l")

/-- a map with the fields `<<!x` and `<<x` -/
def escClash (m : List (String × Node Ex)) : Node Ex := .mk (.map [("m", .mk (.map m) "f" {})]) "f" {}
def escClashM : List (String × Node Ex) := [("<<!x", .mk (.int 1) "f" {}), ("<<x", .mk (.int 2) "f" {})]

/-- C82: the value kept for a map with the fields `<<!x` and `<<x` depends on the order in which Go iterates over the map. -/
theorem escape_clash_order : resultInt (mergeDocs (exLang orderLib orderRefs orderBase) 10 10 false {} (escClash escClashM) []) ["m", "<<x"] = some 2 ∧
    resultInt (mergeDocs (exLang orderLib orderRefs orderBase) 10 10 false {} (escClash escClashM.reverse) []) ["m", "<<x"] = some 1 ∧
    Same (escClash escClashM) (escClash escClashM.reverse) := by
  refine ⟨by decide +kernel, by decide +kernel, ?_⟩
  have h : Same (.mk (.map escClashM) "f" {} : Node Ex) (.mk (.map escClashM.reverse) "f" {}) :=
    perm_same (List.reverse_perm _).symm (by simp [escClashM, MapOK, mkeys]) (by simp [escClashM, GoMaps, GoMapsV]) _ _
  exact same_mk (show VSame (.map _) (.map _) from msame_single h "m")

end Spiff
