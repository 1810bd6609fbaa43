import Verif.Lemmas.Reorder4
/-
C82: the order of the fields of maps does not matter.
-/
namespace Spiff
open Spec
variable {E : Type}

/-! ### lists -/

theorem forall2_filter {α : Type} {H : α → α → Prop} {p q : α → Bool} (hp : ∀ a b, H a b → p a = q b) {l l' : List α} (h : List.Forall₂ H l l') :
    List.Forall₂ H (l.filter p) (l'.filter q) := by
  induction h with
  | nil => exact .nil
  | cons hab _ ih =>
    rw [List.filter_cons, List.filter_cons, hp _ _ hab]
    split
    · exact .cons hab ih
    · exact ih

theorem forall2_map' {α β : Type} {H : α → α → Prop} {K : β → β → Prop} {f : α → β} (hf : ∀ a b, H a b → K (f a) (f b)) {l l' : List α} (h : List.Forall₂ H l l') :
    List.Forall₂ K (l.map f) (l'.map f) := by
  induction h with
  | nil => exact .nil
  | cons hab _ ih => exact .cons (hf _ _ hab) ih

theorem newEntries_same {a a' b b' : List (Node E)} (ha : List.Forall₂ Same a a') (hb : List.Forall₂ Same b b') (k : String) :
    List.Forall₂ Same (newEntries a b k) (newEntries a' b' k) := by
  unfold newEntries
  refine forall2_map' (fun x y h => h.mergedNode) (forall2_filter ?_ ha)
  intro x y hxy
  rw [findStr_same false true _ hxy]
  cases findStr false true y [if k = "" then "name" else k] with
  | none => rfl
  | some name =>
    simp only
    rcases both_some (findRaw_same false [name] ((same_new (show VSame (.list b) (.list b') from hb) "some map").keyNameNode (if k = "" then "name" else k))) with ⟨q1, q2⟩ | ⟨x, y, q1, q2, q3⟩ <;>
      simp only [q1, q2] <;> rfl

/-- the same variables of `processMerges` -/
structure ListSame (v v' : ListVars E) : Prop where
  flags : v.flags = v'.flags
  tag : v.tag = v'.tag
  spliced : List.Forall₂ Same v.spliced v'.spliced
  process : v.process = v'.process
  merged : v.merged = v'.merged
  keyName : v.keyName = v'.keyName
  replaced : v.replaced = v'.replaced
  redirect : v.redirect = v'.redirect
  template : v.template = v'.template

theorem spliceEntry_same {v v' : ListVars E} (hv : ListSame v v') {n n' : Node E} (h : Same n n') (ha : ambiguous n = false) :
    ListSame (spliceEntry v n) (spliceEntry v' n') := by
  obtain ⟨q1, q2⟩ := processKeyTag_same h ha
  unfold spliceEntry
  simp only [← q2, ← hv.keyName]
  exact ⟨hv.1, hv.2, List.rel_append hv.3 (.cons q1 .nil), hv.4, hv.5, rfl, hv.7, hv.8, hv.9⟩

theorem single_unambiguous {n : Node E} {k : String} {x : Node E} (h : n.val = .map [(k, x)]) : ambiguous n = false := by
  simp [ambiguous, h, mkeys]

theorem listEntryExpr_same (L : Lang E) {orig orig' inl inl' res res' : Node E} (ho : Same orig orig') (hi : Same inl inl') (hr : Same res res') (q : String) (e : E)
    {v v' : ListVars E} (hv : ListSame v v') : ListSame (listEntryExpr L orig inl res q e v) (listEntryExpr L orig' inl' res' q e v') := by
  unfold listEntryExpr
  rw [vsame_isStr hi.val, simpleMergeCheck_same L _ hi, ← hv.template]
  split
  · exact hv
  · have hres : Same (orig.withVal (.map [(q, res)])) (orig'.withVal (.map [(q, res')])) := ho.withVal (msame_single hr q)
    cases asTemplate L e v.template with
    | none =>
      refine spliceEntry_same ?_ hres (single_unambiguous rfl)
      exact ⟨hv.1, hv.2, hv.3, rfl, hv.5, hv.6, hv.7, hv.8, rfl⟩
    | some m =>
      simp only
      split
      · rcases both_some (templateExpression_same L m ho) with ⟨q1, q2⟩ | ⟨x, y, q1, q2, q3⟩
        · rw [q1, q2]
          exact ⟨by simp [hv.1], by simp [hv.2], hv.3, rfl, hv.5, hv.6, hv.7, hv.8, rfl⟩
        · rw [q1, q2]
          have hx : Same (orig.withVal (.map [(q, x)])) (orig'.withVal (.map [(q, y)])) := ho.withVal (msame_single q3 q)
          refine spliceEntry_same ?_ hx (single_unambiguous rfl)
          exact ⟨by simp [hv.1], by simp [hv.2], hv.3, rfl, hv.5, hv.6, hv.7, hv.8, rfl⟩
      · refine spliceEntry_same ?_ hres (single_unambiguous rfl)
        exact ⟨by simp [hv.1], by simp [hv.2], hv.3, rfl, hv.5, hv.6, hv.7, hv.8, rfl⟩

theorem listEntry_same (L : Lang E) {orig orig' val val' inl inl' res res' : Node E} {root root' : List (Node E)} (ho : Same orig orig') (hrt : List.Forall₂ Same root root')
    (hval : Same val val') (hamb : ambiguous val = false) (hi : Same inl inl') (hr : Same res res') (q : String)
    {v v' : ListVars E} (hv : ListSame v v') : ListSame (listEntry L orig root val inl res q v).1 (listEntry L orig' root' val' inl' res' q v').1 ∧
      (listEntry L orig root val inl res q v).2 = (listEntry L orig' root' val' inl' res' q v').2 := by
  unfold listEntry
  rw [← hr.ann]
  have hv1 : ListSame (if res.ann.keyName ≠ "" then { v with keyName := res.ann.keyName } else v) (if res.ann.keyName ≠ "" then { v' with keyName := res.ann.keyName } else v') := by
    split
    · exact ⟨hv.1, hv.2, hv.3, hv.4, hv.5, rfl, hv.7, hv.8, hv.9⟩
    · exact hv
  generalize (if res.ann.keyName ≠ "" then { v with keyName := res.ann.keyName } else v) = w at hv1 ⊢
  generalize (if res.ann.keyName ≠ "" then { v' with keyName := res.ann.keyName } else v') = w' at hv1 ⊢
  have other : ∀ b : Bool, ListSame (if b || (embedded L res).isNone then
      (({ w with redirect := res.ann.redirectPath, merged := w.merged || res.ann.merged }, false) : ListVars E × Bool)
    else (spliceEntry w val, false)).1 (if b || (embedded L res').isNone then
      (({ w' with redirect := res.ann.redirectPath, merged := w'.merged || res.ann.merged }, false) : ListVars E × Bool)
    else (spliceEntry w' val', false)).1 ∧ (if b || (embedded L res).isNone then
      (({ w with redirect := res.ann.redirectPath, merged := w.merged || res.ann.merged }, false) : ListVars E × Bool)
    else (spliceEntry w val, false)).2 = (if b || (embedded L res').isNone then
      (({ w' with redirect := res.ann.redirectPath, merged := w'.merged || res.ann.merged }, false) : ListVars E × Bool)
    else (spliceEntry w' val', false)).2 := by
    intro b
    rw [embedded_same L hr]
    split
    · exact ⟨⟨hv1.1, hv1.2, hv1.3, hv1.4, by simp [hv1.5], hv1.6, hv1.7, rfl, hv1.9⟩, rfl⟩
    · exact ⟨spliceEntry_same hv1 hval hamb, rfl⟩
  rcases vsame_cases hr.val with ⟨e, hl⟩ | ⟨l, l', e, e', h1⟩ | ⟨m, m', e, e', h1⟩ | ⟨x, x', e, e', h1⟩
  · rw [← e]
    revert hl
    cases hvv : res.val <;> intro hl <;> first | exact other _ | exact ⟨listEntryExpr_same L ho hi hr q _ hv1, rfl⟩ | exact absurd hl (by simp [isLeaf])
  · rw [e, e']
    simp only [← hv1.keyName]
    have hn := newEntries_same h1 hrt w.keyName
    split
    · exact ⟨⟨hv1.1, hv1.2, hn, rfl, rfl, rfl, rfl, rfl, hv1.9⟩, rfl⟩
    · exact ⟨⟨hv1.1, hv1.2, List.rel_append hv1.3 hn, hv1.4, rfl, rfl, rfl, rfl, hv1.9⟩, rfl⟩
  · rw [e, e']; exact other _
  · rw [e, e']; exact other _

theorem listEntries_same (L : Lang E) {rec rec' : FlowFn E} (hrec : RecSame rec rec') {env env' : Env E} (he : SameEnv env env') {orig orig' : Node E} (ho : Same orig orig')
    {root root' l l' : List (Node E)} (hr : List.Forall₂ Same root root') (h : List.Forall₂ Same l l') (ha : ∀ n ∈ l, ambiguous n = false)
    {v v' : ListVars E} (hv : ListSame v v') : Delivers ListSame (listEntries L rec env orig root l v) (listEntries L rec' env' orig' root' l' v') := by
  induction h generalizing v v' with
  | nil => exact yields_ok hv
  | cons hab hrest ih =>
    rename_i a b r r'
    have iha := fun w w' => @ih (fun n hn => ha n (List.mem_cons_of_mem _ hn)) w w'
    have hamb := ha a (List.mem_cons_self ..)
    unfold listEntries
    rcases listEntryMerge_same hab with ⟨q1, q2⟩ | ⟨x, y, q, q1, q2, q3⟩
    · rw [q1, q2]
      exact iha _ _ (spliceEntry_same hv hab hamb)
    · rw [q1, q2]
      refine yields_bind (hrec _ _ _ _ _ _ he q3) (fun res res' hres => ?_)
      obtain ⟨p1, p2⟩ := listEntry_same L ho hr hab hamb q3 hres q hv
      rw [← p2]
      split
      · exact yields_ok p1
      · exact iha _ _ p1

theorem isDirectMerge_same (L : Lang E) {n n' : Node E} (h : Same n n') : isDirectMerge L n = isDirectMerge L n' := by
  unfold isDirectMerge
  rcases listEntryMerge_same h with ⟨q1, q2⟩ | ⟨x, y, q, q1, q2, q3⟩
  · rw [q1, q2]
  · rw [q1, q2]
    obtain ⟨v, s, a⟩ := x
    obtain ⟨v', s', a'⟩ := y
    have hvv := q3.val
    simp only [Node.val] at hvv
    cases v <;> cases v' <;> simp_all [VSame]

theorem processMerges_same (L : Lang E) {rec rec' : FlowFn E} (hrec : RecSame rec rec') {env env' : Env E} (he : SameEnv env env') {orig orig' : Node E} (ho : Same orig orig')
    {root root' : List (Node E)} (hr : List.Forall₂ Same root root') (ha : ∀ n ∈ root, ambiguous n = false) (t : Bool) :
    Delivers ListSame (processMerges L rec orig root env t) (processMerges L rec' orig' root' env' t) := by
  unfold processMerges
  have hd : root.any (isDirectMerge L) = root'.any (isDirectMerge L) := by
    clear ha
    induction hr with
    | nil => rfl
    | cons hab _ ih => simp only [List.any_cons, isDirectMerge_same L hab, ih]
  rw [← hd, ← ho.flags, ← (inheritedFlags_same he).1]
  refine yields_map (listEntries_same L hrec he ho hr hr ha ?_) (fun a b hab => ?_)
  · unfold listVars0
    rw [← ho.ann]
    exact ⟨rfl, rfl, .nil, rfl, rfl, rfl, rfl, rfl, rfl⟩
  · unfold setNoMerge
    split
    · exact ⟨by simp [hab.1], hab.2, hab.3, hab.4, hab.5, hab.6, hab.7, hab.8, hab.9⟩
    · exact hab

theorem stepOf_same {n n' : Node E} (h : Same n n') (k s : String) (u : Bool) : stepOf n k s u = stepOf n' k s u := by
  unfold stepOf
  have hv := h.val
  cases hx : n.val <;> cases hy : n'.val <;> simp_all [VSame, Val.isExpr]

theorem stepName_same {rec rec' : FlowFn E} (hrec : RecSame rec rec') (i : Nat) {n n' : Node E} (h : Same n n') (k : String) {env env' : Env E} (he : SameEnv env env') (u : Bool) :
    Delivers Eq (stepName rec i n k env u) (stepName rec' i n' k env' u) := by
  unfold stepName
  simp only [findStr_same false false _ h]
  cases (if u = true then findStr false false n' [if k = "" then "name" else k] else none) with
  | some name => exact yields_ok rfl
  | none =>
    simp only
    rcases both_some (findRaw_same false [if k = "" then "name" else k] h) with ⟨q1, q2⟩ | ⟨x, y, q1, q2, q3⟩
    · rw [q1, q2]; exact yields_ok rfl
    · rw [q1, q2]
      simp only [vsame_isNil q3.val, vsame_isExpr q3.val]
      split
      · exact yields_ok rfl
      · split
        · exact yields_map (hrec _ _ _ _ _ _ (he.withPath _) q3) (fun a b hab => stepOf_same hab _ _ _)
        · exact yields_ok (stepOf_same q3 _ _ _)

theorem uniqueKeys_same {rec rec' : FlowFn E} (hrec : RecSame rec rec') (k : String) {env env' : Env E} (he : SameEnv env env') (i : Nat) {l l' : List (Node E)}
    (h : List.Forall₂ Same l l') (keys : List String) : Delivers Eq (uniqueKeys rec k env i l keys) (uniqueKeys rec' k env' i l' keys) := by
  induction h generalizing i keys with
  | nil => exact yields_ok rfl
  | cons hab _ ih =>
    unfold uniqueKeys
    refine yields_bind (stepName_same hrec i hab k he true) ?_
    rintro s _ rfl
    split
    · exact yields_ok rfl
    · exact ih _ _

theorem flowEntries_same {rec rec' : FlowFn E} (hrec : RecSame rec rec') (k : String) {env env' : Env E} (he : SameEnv env env') (u nm : Bool) (i : Nat) {l l' : List (Node E)}
    (h : List.Forall₂ Same l l') : Delivers (List.Forall₂ Same) (flowEntries rec k env u nm i l) (flowEntries rec' k env' u nm i l') := by
  induction h generalizing i with
  | nil => exact yields_ok .nil
  | cons hab _ ih =>
    rename_i n0 n0' _ _ _
    unfold flowEntries
    refine yields_bind (stepName_same hrec i hab k he u) ?_
    rintro s _ rfl
    refine yields_bind (H := Same) ?_ (fun a b hab => ?_)
    · unfold flowEntry
      have hm : ∀ c : Bool, Same (if c then Node.mergedNode n0 else n0) (if c then Node.mergedNode n0' else n0') := by
        intro c
        split
        · exact hab.mergedNode
        · exact hab
      simp only
      split
      · exact hrec _ _ _ _ _ _ (he.withPath _) (hm _)
      · exact yields_ok (hm _)
    · refine yields_map (ih _) (fun x y hxy => ?_)
      rw [← hab.ann]
      split
      · exact .cons hab hxy
      · exact hxy

theorem injectList_same {s s' : Option (Node E)} (hs : Both Same s s') (rf fl : Flags) {l l' : List (Node E)} (hl : List.Forall₂ Same l l') :
    VSame (injectList s rf fl l).1 (injectList s' rf fl l').1 ∧ (injectList s rf fl l).2 = (injectList s' rf fl l').2 := by
  unfold injectList
  rcases both_some hs with ⟨rfl, rfl⟩ | ⟨x, y, rfl, rfl, q3⟩
  · exact ⟨hl, rfl⟩
  · simp only
    split
    · rcases vsame_cases q3.val with ⟨e, hlf⟩ | ⟨l1, l2, e, e', h1⟩ | ⟨m, m', e, e', h1⟩ | ⟨x, x', e, e', h1⟩
      · rw [← e]
        revert hlf
        cases hv : x.val <;> intro hlf <;> first | exact ⟨hl, rfl⟩ | exact absurd hlf (by simp [isLeaf])
      · rw [e, e']
        exact ⟨List.rel_append (forall2_filter (fun a b hab => by rw [hab.flags]) h1) hl, rfl⟩
      · rw [e, e']; exact ⟨hl, rfl⟩
      · rw [e, e']; exact ⟨hl, rfl⟩
    · exact ⟨hl, rfl⟩

theorem listNew_same {rec rec' : FlowFn E} (hrec : RecSame rec rec') {root root' : Node E} (hr : Same root root') {env env' : Env E} (he : SameEnv env env')
    {s s' : Option (Node E)} (hs : Both Same s s') {v v' : ListVars E} (hv : ListSame v v') :
    Delivers (fun x y => VSame x.1 y.1 ∧ x.2 = y.2) (listNew rec root env s v) (listNew rec' root' env' s' v') := by
  obtain ⟨f, t, sp, pr, mg, kn, rp, rd, te⟩ := v
  obtain ⟨f', t', sp', pr', mg', kn', rp', rd', te'⟩ := v'
  obtain ⟨h1, h2, h3, h4, h5, h6, h7, h8, h9⟩ := hv
  simp only at h1 h2 h3 h4 h5 h6 h7 h8 h9
  subst h1 h2 h4 h5 h6 h7 h8 h9
  unfold listNew
  simp only
  split
  · split
    · exact yields_error
    · have hen : SameEnv (match rd with | some r => env.redirectOverwrite r | none => env) (match rd with | some r => env'.redirectOverwrite r | none => env') := by
        cases rd with
        | none => exact he
        | some r => exact he.redirectOverwrite r
      refine yields_bind (H := Eq) ?_ ?_
      · split
        · exact uniqueKeys_same hrec _ hen _ h3 _
        · exact yields_ok rfl
      · rintro u _ rfl
        refine yields_map (flowEntries_same hrec _ hen _ _ _ h3) (fun a b hab => ?_)
        rw [← hr.flags]
        split
        · exact ⟨hab, rfl⟩
        · exact injectList_same hs _ _ hab
  · refine yields_ok ⟨?_, rfl⟩
    rw [← hr.src]
    split
    · exact same_new (show VSame (.list sp) (.list sp') from h3) _
    · exact h3

theorem listNode_same {root root' : Node E} (hr : Same root root') {v v' : ListVars E} (hv : ListSame v v') {x y : Val E} (hx : VSame x y) (fl : Flags) :
    Same (listNode root v x fl) (listNode root' v' y fl) := by
  unfold listNode
  simp only [← hv.keyName, ← hv.replaced, ← hv.redirect, ← hv.tag]
  have h1 : Same (if v.keyName ≠ "" then root.keyNameNode v.keyName else root) (if v.keyName ≠ "" then root'.keyNameNode v.keyName else root') := by
    split
    · exact hr.keyNameNode _
    · exact hr
  generalize (if v.keyName ≠ "" then root.keyNameNode v.keyName else root) = r at h1 ⊢
  generalize (if v.keyName ≠ "" then root'.keyNameNode v.keyName else root') = r' at h1 ⊢
  have h2 : Same (if v.replaced then Node.replaceNode x r v.redirect else match v.redirect with
      | some rd => Node.redirectNode x r (some rd)
      | none => r.withVal x) (if v.replaced then Node.replaceNode y r' v.redirect else match v.redirect with
      | some rd => Node.redirectNode y r' (some rd)
      | none => r'.withVal y) := by
    split
    · exact h1.replaceNode hx _
    · cases v.redirect with
      | none => exact h1.withVal hx
      | some rd => exact h1.redirectNode hx _
  generalize (if v.replaced then Node.replaceNode x r v.redirect else match v.redirect with
      | some rd => Node.redirectNode x r (some rd)
      | none => r.withVal x) = z at h2 ⊢
  generalize (if v.replaced then Node.replaceNode y r' v.redirect else match v.redirect with
      | some rd => Node.redirectNode y r' (some rd)
      | none => r'.withVal y) = z' at h2 ⊢
  rw [← h2.flags, ← h2.ann]
  split
  · exact h2.addFlags _
  · split
    · exact h2.setTag _
    · exact h2

theorem flowList_same (L : Lang E) {rec rec' : FlowFn E} (hrec : RecSame rec rec') {root root' : Node E} (hr : Same root root') {l l' : List (Node E)}
    (hl : List.Forall₂ Same l l') (ha : ∀ n ∈ l, ambiguous n = false) {env env' : Env E} (he : SameEnv env env') (t : Bool) :
    Delivers Same (flowList L rec root l env t) (flowList L rec' root' l' env' t) := by
  unfold flowList
  rw [← hr.ann]
  split
  · exact yields_ok hr
  · refine yields_bind (processMerges_same L hrec he hr hl ha t) (fun v v' hv => ?_)
    refine yields_map (listNew_same hrec hr he (inheritedFlags_same he).2 hv) ?_
    rintro ⟨x, f⟩ ⟨y, f'⟩ ⟨hxy, hf⟩
    simp only at hxy hf
    subst hf
    exact listNode_same hr hv hxy f

/-! ### expressions -/

theorem exprEval_same {L : Lang E} (hL : OrderFree L) (e : E) (mk : Option (Marker E)) {root root' : Node E} (hr : Same root root') {env env' : Env E} (he : SameEnv env env') :
    VSame (exprEval L e mk root env).1 (exprEval L e mk root' env').1 ∧ (exprEval L e mk root env).2 = (exprEval L e mk root' env').2 := by
  obtain ⟨h1, h2⟩ := hL e env env' he
  rw [sameValue_iff] at h1
  unfold exprEval
  cases mk with
  | none => exact ⟨h1, by rw [h2]⟩
  | some m =>
    simp only
    split
    · rcases both_some (templateExpression_same L m hr) with ⟨q1, q2⟩ | ⟨x, y, q1, q2, q3⟩
      · rw [q1, q2]; exact ⟨vsame_leaf rfl, rfl⟩
      · rw [q1, q2]; exact ⟨q3, rfl⟩
    · exact ⟨h1, by rw [h2]⟩

theorem exprRoot_same (mk : Option (Marker E)) {root root' : Node E} (hr : Same root root') : Same (exprRoot mk root) (exprRoot mk root') := by
  unfold exprRoot
  cases mk with
  | none => exact hr
  | some m =>
    simp only [← hr.ann]
    split
    · exact hr.setTag _
    · exact hr

theorem exprValue_same (L : Lang E) {v v' : Val E} (hv : VSame v v') (i : Info) {root root' : Node E} (hr : Same root root') {env env' : Env E} (he : SameEnv env env') :
    Same (exprValue L v i root env) (exprValue L v' i root' env') := by
  unfold exprValue
  simp only [← hr.src, vsame_isStr hv]
  split
  · exact flowString_same L (same_new hv _) he
  · exact same_new hv _

theorem exprAnn_same {n n' : Node E} (h : Same n n') (i : Info) {root root' : Node E} (hr : Same root root') (fl : Flags) (rd : Option (List String)) :
    Same (exprAnn n i root fl rd) (exprAnn n' i root' fl rd) := by
  have ite : ∀ {c : Prop} [Decidable c] {a a' b b' : Node E}, Same a a' → Same b b' → Same (if c then a else b) (if c then a' else b') := by
    intro c _ a a' b b' h1 h2
    split
    · exact h1
    · exact h2
  unfold exprAnn
  simp only [← hr.ann]
  refine updateNode_same ?_ _ _
  have h1 := ite (c := i.issue ≠ "") (h.issueNode false i.failed i.issue) h
  have h2 := ite (c := i.undefined = true) h1.undefinedNode h1
  have h3 := ite (c := (root.ann.preferred || i.preferred) = true) h2.preferredNode h2
  have h4 := ite (c := i.keyName ≠ "") (h3.keyNameNode i.keyName) h3
  have h5 := ite (c := rd.isSome = true) (h4.redirectNode h4.val rd) h4
  exact ite (h5.replaceNode h5.val rd) (ite h5.mergedNode h5)

/-- the same result of the expression case -/
def ExprSame : Node E ⊕ (Node E × Bool × Flags × Option (List String) × String) → Node E ⊕ (Node E × Bool × Flags × Option (List String) × String) → Prop
  | .inl a, .inl b => Same a b
  | .inr a, .inr b => Same a.1 b.1 ∧ a.2 = b.2
  | _, _ => False

theorem flowExpr_same {L : Lang E} (hL : OrderFree L) {root root' : Node E} (hr : Same root root') (e : E) {env env' : Env E} (he : SameEnv env env') (so et : Bool)
    (rd : Option (List String)) : ExprSame (flowExpr L root e env so et rd) (flowExpr L root' e env' so et rd) := by
  unfold flowExpr
  rw [← hr.src, ← he.sourceName]
  have hen : SameEnv (if root.src ≠ env.sourceName then env.withSource root.src else env) (if root.src ≠ env.sourceName then env'.withSource root.src else env') := by
    split
    · exact he.withSource _
    · exact he
  generalize (if root.src ≠ env.sourceName then env.withSource root.src else env) = e1 at hen ⊢
  generalize (if root.src ≠ env.sourceName then env'.withSource root.src else env') = e2 at hen ⊢
  simp only
  have hr1 := exprRoot_same (asTemplate L e et) hr
  generalize exprRoot (asTemplate L e et) root = r1 at hr1 ⊢
  generalize exprRoot (asTemplate L e et) root' = r2 at hr1 ⊢
  obtain ⟨q1, q2⟩ := exprEval_same hL e (asTemplate L e et) hr1 hen
  generalize exprEval L e (asTemplate L e et) r1 e1 = x1 at q1 q2 ⊢
  generalize exprEval L e (asTemplate L e et) r2 e2 = x2 at q1 q2 ⊢
  obtain ⟨v, i, ok, fl⟩ := x1
  obtain ⟨v', i', ok', fl'⟩ := x2
  simp only [Prod.mk.injEq] at q1 q2
  obtain ⟨rfl, rfl, rfl⟩ := q2
  simp only [← hr1.flags, ← hr1.ann]
  split
  · split
    · exact hr1.issueNode ..
    · exact ⟨hr1.issueNode .., by simp only [(hr1.issueNode _ _ _).ann]⟩
  · have h0 := exprValue_same L q1 i hr1 hen
    have h1 := exprAnn_same h0 i hr1 ((r1.flags.add fl).add i.flags) (if i.redirectPath.isSome then i.redirectPath else rd)
    simp only [vsame_isExpr h0.val, h1.ann]
    generalize (if i.redirectPath.isSome then i.redirectPath else rd) = red at h1 ⊢
    split
    · exact h1
    · exact ⟨h1, rfl⟩

/-! ### the pass -/

/-- `flowStep` after the redirection of the environment -/
def flowBody (L : Lang E) (rec : FlowFn E) (env : Env E) (root : Node E) (shouldOverride enforceTemplate : Bool) : Run (Node E) :=
    let ov := fun (r : Node E) (rep : Bool) (fl : Flags) (red : Option (List String)) (k : String) =>
      override env r shouldOverride root.ann.merged rep red k fl
    if !root.ann.replace then
      if !root.val.isExpr && root.ann.merged then .ok root
      else match root.val with
        | .map m => flowMap L rec root m env true enforceTemplate
        | .list l => flowList L rec root l env enforceTemplate
        | .expr e =>
          match flowExpr L root e env shouldOverride enforceTemplate root.ann.redirectPath with
          | .inl r => .ok r
          | .inr (r, rep, fl, red, k) => .ok (ov r rep fl red k)
        | .str _ =>
          let r := flowString L root env
          if r.val.isExpr then .ok r
          else .ok (ov root root.ann.replace root.flags root.ann.redirectPath root.ann.keyName)
        | _ => .ok (ov root root.ann.replace root.flags root.ann.redirectPath root.ann.keyName)
    else .ok (ov root root.ann.replace root.flags root.ann.redirectPath root.ann.keyName)

theorem flowStep_body (L : Lang E) (rec : FlowFn E) (env : Env E) (root : Node E) (so et : Bool) :
    flowStep L rec env root so et = flowBody L rec (match root.ann.redirectPath with | some r => env.redirectOverwrite r | none => env) root so et := rfl

theorem flowStep_same {L : Lang E} (hL : OrderFree L) {rec rec' : FlowFn E} (hrec : RecSame rec rec') {env env' : Env E} (he : SameEnv env env') {root root' : Node E}
    (hr : Same root root') (ha : ambiguousList root = false) (so et : Bool) : Delivers Same (flowStep L rec env root so et) (flowStep L rec' env' root' so et) := by
  rw [flowStep_body, flowStep_body, ← hr.ann]
  have hen : SameEnv (match root.ann.redirectPath with | some r => env.redirectOverwrite r | none => env)
      (match root.ann.redirectPath with | some r => env'.redirectOverwrite r | none => env') := by
    cases root.ann.redirectPath with
    | none => exact he
    | some r => exact he.redirectOverwrite r
  revert hen
  generalize (match root.ann.redirectPath with | some r => env.redirectOverwrite r | none => env) = e1
  generalize (match root.ann.redirectPath with | some r => env'.redirectOverwrite r | none => env') = e2
  intro hen
  unfold flowBody
  simp only [← hr.ann, ← hr.flags]
  rw [← vsame_isExpr hr.val]
  have hov := fun {n n' : Node E} (h : Same n n') rep fl red k => override_same hen h so root.ann.merged rep red k fl
  split
  · split
    · exact yields_ok hr
    · rcases vsame_cases hr.val with ⟨e, hlf⟩ | ⟨l1, l2, e, e', h1⟩ | ⟨m, m', e, e', h1⟩ | ⟨x, x', e, e', h1⟩
      · rw [← e]
        revert hlf
        cases hv : root.val <;> intro hlf <;> first | exact yields_ok (hov hr _ _ _ _) | (simp only [isLeaf, Bool.false_eq_true] at hlf; done) | skip
        · have hf := flowString_same L hr hen
          simp only [vsame_isExpr hf.val]
          split
          · exact yields_ok hf
          · exact yields_ok (hov hr _ _ _ _)
        · rename_i ex
          simp only
          have hx := flowExpr_same hL hr ex hen so et root.ann.redirectPath
          cases h1 : flowExpr L root ex e1 so et root.ann.redirectPath <;> cases h2 : flowExpr L root' ex e2 so et root.ann.redirectPath <;> rw [h1, h2] at hx
          · exact yields_ok hx
          · exact hx.elim
          · exact hx.elim
          · rename_i a b
            obtain ⟨a, rep, fl, red, k⟩ := a
            obtain ⟨b, rep', fl', red', k'⟩ := b
            obtain ⟨hab, heq⟩ := hx
            simp only [Prod.mk.injEq] at heq hab
            obtain ⟨rfl, rfl, rfl, rfl⟩ := heq
            exact yields_ok (hov hab _ _ _ _)
      · rw [e, e']
        refine flowList_same L hrec hr h1 (fun n hn => ?_) hen et
        rw [ambiguousList, e] at ha
        simp only [List.any_eq_false] at ha
        exact Bool.eq_false_iff.2 (ha n hn)
      · rw [e, e']
        exact flowMap_same L hrec hr h1 hen true et
      · rw [e, e']; exact yields_ok (hov hr _ _ _ _)
  · exact yields_ok (hov hr _ _ _ _)

theorem ambiguousList_same {n n' : Node E} (h : Same n n') : ambiguousList n = ambiguousList n' := by
  unfold ambiguousList
  rcases vsame_cases h.val with ⟨e, hl⟩ | ⟨l, l', e, e', h1⟩ | ⟨m, m', e, e', h1⟩ | ⟨x, x', e, e', h1⟩
  · rw [e]
  · rw [e, e']
    simp only
    clear e e'
    induction h1 with
    | nil => rfl
    | cons hab _ ih => simp only [List.any_cons, ambiguous_same hab, ih]
  · rw [e, e']
  · rw [e, e']

/-- one pass -/
theorem flowC_flow {L : Lang E} (hL : OrderFree L) (n : Nat) : RecSame (flowC L n) (flow L n) := by
  induction n with
  | zero => intro env env' x y so et he h; exact yields_error
  | succ n ih =>
    intro env env' x y so et he h
    simp only [flowC, flow]
    cases ha : ambiguousList x with
    | true => exact yields_error
    | false => exact flowStep_same hL ih he h ha so et

theorem flowC_flowC {L : Lang E} (hL : OrderFree L) (n : Nat) : RecSame (flowC L n) (flowC L n) := by
  induction n with
  | zero => intro env env' x y so et he h; exact yields_error
  | succ n ih =>
    intro env env' x y so et he h
    simp only [flowC, ← ambiguousList_same h]
    cases ha : ambiguousList x with
    | true => exact yields_error
    | false => exact flowStep_same hL ih he h ha so et

end Spiff
