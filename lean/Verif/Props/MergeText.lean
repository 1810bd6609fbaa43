import Verif.Props.Pipeline
/-
C90: complete runs with stubs on files without expressions.
-/
namespace Spiff
open Spec
variable {E S : Type}

/-! ### the processing, uniformly in fuel and environment -/

theorem merge_uniform [DecidableEq E] (L : Lang E) (stubs : List (Node E)) (doc : Node E)
    (hp : Plain L doc) (hsi : Simple (erase doc)) (hno : NamesOK (erase doc))
    (hs : ∀ s ∈ stubs, Plain L s) (hss : ∀ s ∈ stubs, Simple (erase s)) :
    ∃ r N, Plain L r ∧ erase r = Spec.merge (stubs.map erase) (erase doc) ∧
      ∀ env : Env E, env.stubs = stubs → env.stubPath = [] → env.nomerge = false →
      ∀ fuel ≥ N, ∀ passes, flowDoc L fuel (passes + 3) env doc true = .ok (r, []) := by
  let x1 := ovN stubs true [] doc
  let x2 := markN stubs [] x1
  have hx1 : Plain L x1 := ovN_plain hs doc true [] hp
  have hst : Stab stubs true [] x1 := stab_ov hs hss doc true [] (by simp) hp hsi hno
  obtain ⟨m1, m2, m3⟩ := stab_mark stubs x1 true [] hst
  have e2 : ovN stubs true [] x1 = x2 := m1
  have hx2 : Plain L x2 := by rw [← e2]; exact ovN_plain hs x1 true [] hx1
  have e3 : ovN stubs true [] x2 = x2 := by
    rw [(stab_mark stubs x2 true [] m2).1]; exact m3
  have er1 : erase x1 = Spec.merge (stubs.map erase) (erase doc) :=
    erase_ovN hs hss doc true [] hp hsi (by simp)
  have er2 : erase x2 = erase x1 := erase_mark stubs x1 []
  have main : ∃ r, Plain L r ∧ erase r = Spec.merge (stubs.map erase) (erase doc) ∧
      ∀ env : Env E, env.stubs = stubs → env.stubPath = [] → env.nomerge = false →
      ∀ fuel ≥ max (depth doc) (max (depth x1) (depth x2)) + 1, ∀ passes, flowLoop L fuel env doc true (passes + 3) doc = .ok r := by
    have p1 : ∀ env : Env E, env.stubs = stubs → env.stubPath = [] → env.nomerge = false → ∀ fuel ≥ max (depth doc) (max (depth x1) (depth x2)) + 1,
        pass L fuel env doc doc true = .ok x1 ∧ pass L fuel env doc x1 true = .ok x2 ∧ pass L fuel env doc x2 true = .ok x2 := by
      intro env h1 h2 h3 fuel hf
      subst h1
      refine ⟨pass_plain L hs h2 h3 doc hp (by omega) true, ?_, ?_⟩
      · rw [pass_plain L hs h2 h3 doc hx1 (by omega) true, e2]
      · rw [pass_plain L hs h2 h3 doc hx2 (by omega) true, e3]
    have u1 := (plain_flags hx1).2.2.2.2.2
    have u2 := (plain_flags hx2).2.2.2.2.2
    cases c1 : deepEq doc x1 with
    | true =>
      have : x1 = doc := deepEq_ov (stubs := stubs) hs doc true [] hp c1
      refine ⟨doc, hp, by rw [← er1, this], fun env h1 h2 h3 fuel hf passes => ?_⟩
      obtain ⟨q1, -, -⟩ := p1 env h1 h2 h3 fuel hf
      rw [show passes + 3 = passes + 1 + 1 + 1 from rfl, flowLoop, q1]
      simp only [bind, Except.bind, pure, Except.pure, u1, Bool.false_eq_true, if_false, c1, if_true]
    | false =>
      cases c2 : deepEq x1 x2 with
      | true =>
        refine ⟨x1, hx1, er1, fun env h1 h2 h3 fuel hf passes => ?_⟩
        obtain ⟨q1, q2, -⟩ := p1 env h1 h2 h3 fuel hf
        rw [show passes + 3 = passes + 1 + 1 + 1 from rfl, flowLoop, q1]
        simp only [bind, Except.bind, pure, Except.pure, u1, Bool.false_eq_true, if_false, c1]
        rw [flowLoop, q2]
        simp only [bind, Except.bind, pure, Except.pure, u2, Bool.false_eq_true, if_false, c2, if_true]
      | false =>
        refine ⟨x2, hx2, by rw [er2, er1], fun env h1 h2 h3 fuel hf passes => ?_⟩
        obtain ⟨q1, q2, q3⟩ := p1 env h1 h2 h3 fuel hf
        rw [show passes + 3 = passes + 1 + 1 + 1 from rfl, flowLoop, q1]
        simp only [bind, Except.bind, pure, Except.pure, u1, Bool.false_eq_true, if_false, c1]
        rw [flowLoop, q2]
        simp only [bind, Except.bind, pure, Except.pure, u2, Bool.false_eq_true, if_false, c2]
        rw [flowLoop, q3]
        simp only [bind, Except.bind, pure, Except.pure, u2, Bool.false_eq_true, if_false, deepEq_refl_plain x2 hx2, if_true]
  obtain ⟨r, h1, h2, h3⟩ := main
  refine ⟨r, max (depth doc) (max (depth x1) (depth x2)) + 1, h1, h2, fun env e1 e2 e3 fuel hf passes => ?_⟩
  unfold flowDoc
  rw [h3 env e1 e2 e3 fuel hf passes]
  simp [bind, Except.bind, pure, Except.pure, plain_resolved r h1]

/-! ### what holds for all parts of the inputs holds for all parts of the result -/

mutual
/-- all scalars, field names, list lengths -/
def DocAll (Q : Doc → Prop) (K : String → Prop) (W : Nat → Prop) : Doc → Prop
  | .list l => W l.length ∧ DocAllL Q K W l
  | .map m => DocAllM Q K W m
  | .nil => Q .nil
  | .bool b => Q (.bool b)
  | .int i => Q (.int i)
  | .float b => Q (.float b)
  | .str s => Q (.str s)
termination_by structural d => d
def DocAllL (Q : Doc → Prop) (K : String → Prop) (W : Nat → Prop) : List Doc → Prop
  | [] => True
  | d :: r => DocAll Q K W d ∧ DocAllL Q K W r
termination_by structural d => d
def DocAllM (Q : Doc → Prop) (K : String → Prop) (W : Nat → Prop) : List (String × Doc) → Prop
  | [] => True
  | (k, d) :: r => K k ∧ DocAll Q K W d ∧ DocAllM Q K W r
termination_by structural d => d
end

section
variable {Q : Doc → Prop} {K : String → Prop} {W : Nat → Prop}

theorem docAllL_iff {l : List Doc} : DocAllL Q K W l ↔ ∀ d ∈ l, DocAll Q K W d := by
  induction l with
  | nil => simp [DocAllL]
  | cons a r ih => simp [DocAllL, ih]

theorem docAllM_iff {m : List (String × Doc)} : DocAllM Q K W m ↔ ∀ e ∈ m, K e.1 ∧ DocAll Q K W e.2 := by
  induction m with
  | nil => simp [DocAllM]
  | cons a r ih => obtain ⟨k, n⟩ := a; simp [DocAllM, ih, and_assoc]

theorem docAll_sel {d d' : Doc} (s : Sel) (h : DocAll Q K W d) (hs : d.sel s = some d') : DocAll Q K W d' := by
  cases d <;> cases s <;> simp only [Doc.sel, reduceCtorEq] at hs
  · exact docAllL_iff.1 h.2 _ (List.mem_of_find?_eq_some hs)
  · exact docAllL_iff.1 h.2 _ (List.mem_of_getElem? hs)
  · exact docAllL_iff.1 h.2 _ (List.mem_of_find?_eq_some hs)
  · rw [lookup_eq_mget] at hs
    exact (docAllM_iff.1 h _ (mget_some_mem hs)).2

theorem docAll_at (p : List Sel) : ∀ {d d' : Doc}, DocAll Q K W d → d.at p = some d' → DocAll Q K W d' := by
  induction p with
  | nil => intro d d' h hs; cases hs; exact h
  | cons s p ih =>
    intro d d' h hs
    rw [Doc.at] at hs
    split at hs
    · rename_i x hx
      exact ih (docAll_sel s h hx) hs
    · cases hs

theorem docAll_stub {stubs : List Doc} (h : ∀ d ∈ stubs, DocAll Q K W d) {p : List Sel} {d' : Doc} (hs : stubValue stubs p = some d') : DocAll Q K W d' := by
  unfold stubValue at hs
  obtain ⟨d, hd, hd'⟩ := List.exists_of_findSome?_eq_some hs
  exact docAll_at p (h d hd) hd'

theorem docAll_getD {stubs : List Doc} (h : ∀ d ∈ stubs, DocAll Q K W d) (p : List Sel) {d : Doc} (hd : DocAll Q K W d) (over : Bool) :
    DocAll Q K W (if over then (stubValue stubs p).getD d else d) := by
  cases over with
  | false => exact hd
  | true =>
    rw [if_pos rfl]
    cases hs : stubValue stubs p with
    | none => exact hd
    | some d' => exact docAll_stub h hs

theorem overlayL_length (stubs : List Doc) (named : Bool) (p : List Sel) (l : List Doc) : ∀ i, (overlayL stubs named p i l).length = l.length := by
  induction l with
  | nil => intro i; rfl
  | cons d r ih => intro i; rw [overlayL, List.length_cons, List.length_cons, ih]

theorem docAll_overlay {stubs : List Doc} (h : ∀ d ∈ stubs, DocAll Q K W d) (d : Doc) :
    ∀ over p, DocAll Q K W d → DocAll Q K W (overlay stubs over p d) := by
  refine Doc.rec (motive_1 := fun d => ∀ over p, DocAll Q K W d → DocAll Q K W (overlay stubs over p d))
    (motive_2 := fun l => ∀ named p i, DocAllL Q K W l → DocAllL Q K W (overlayL stubs named p i l))
    (motive_3 := fun m => ∀ p, DocAllM Q K W m → DocAllM Q K W (overlayM stubs p m))
    (motive_4 := fun e => ∀ over p, DocAll Q K W e.2 → DocAll Q K W (overlay stubs over p e.2)) ?_ ?_ ?_ ?_ ?_ ?_ ?_ ?_ ?_ ?_ ?_ ?_ d
  · intro over p hd; rw [overlay]; exact docAll_getD h p hd over
  · intro b over p hd; rw [overlay]; exact docAll_getD h p hd over
  · intro b over p hd; rw [overlay]; exact docAll_getD h p hd over
  · intro b over p hd; rw [overlay]; exact docAll_getD h p hd over
  · intro b over p hd; rw [overlay]; exact docAll_getD h p hd over
  · intro l ih over p hd
    rw [overlay, DocAll, overlayL_length]
    exact ⟨hd.1, ih _ _ _ hd.2⟩
  · intro m ih over p hd
    rw [overlay, DocAll]
    exact ih _ hd
  · intro _ _ _ _; trivial
  · intro d r ih ih' named p i hd
    rw [overlayL, DocAllL]
    exact ⟨ih _ _ hd.1, ih' _ _ _ hd.2⟩
  · intro _ _; trivial
  · rintro ⟨k, d⟩ r ih ih' p hd
    rw [overlayM, DocAllM]
    exact ⟨hd.1, ih _ _ hd.2.1, ih' _ hd.2.2⟩
  · intro k d ih over p hd; exact ih over p hd

end

theorem docAll_simple {Q : Doc → Prop} {K : String → Prop} (hK : ∀ k, K k → KeyOK k) (d : Doc) : DocAll Q K (· < 2^63) d → Simple d := by
  refine Doc.rec (motive_1 := fun d => DocAll Q K (· < 2^63) d → Simple d) (motive_2 := fun l => DocAllL Q K (· < 2^63) l → SimpleL l)
    (motive_3 := fun m => DocAllM Q K (· < 2^63) m → SimpleM m) (motive_4 := fun e => DocAll Q K (· < 2^63) e.2 → Simple e.2) ?_ ?_ ?_ ?_ ?_ ?_ ?_ ?_ ?_ ?_ ?_ ?_ d
  · intro _; trivial
  · intro _ _; trivial
  · intro _ _; trivial
  · intro _ _; trivial
  · intro _ _; trivial
  · intro l ih h; exact ⟨h.1, ih h.2⟩
  · intro l ih h; exact ih h
  · intro _; trivial
  · intro d r ih ih' h; exact ⟨ih h.1, ih' h.2⟩
  · intro _; trivial
  · rintro ⟨k, d⟩ r ih ih' h; exact ⟨hK _ h.1, ih h.2.1, ih' h.2.2⟩
  · intro k d ih h; exact ih h

/-! ### processed documents -/

/-- a document after processing: only data, no annotations but marks of lists with a stub value -/
inductive Quiet : Node E → Prop
  | leaf (v : Val E) (s : String) (h : Scalar v) : Quiet (.mk v s {})
  | list (l : List (Node E)) (s : String) (a : Ann) (ha : a = bare ∨ a = bareList) (h : ∀ n ∈ l, Quiet n) : Quiet (.mk (.list l) s a)
  | map (m : List (String × Node E)) (s : String) (hm : MapOK m) (h : ∀ e ∈ m, Quiet e.2) : Quiet (.mk (.map m) s {})

theorem plain_quiet (L : Lang E) (n : Node E) : Plain L n → Quiet n := by
  refine Node.rec (motive_1 := fun v => ∀ s a, PlainV L a v → Quiet (.mk v s a)) (motive_2 := fun n => Plain L n → Quiet n)
    (motive_3 := fun l => PlainL L l → ∀ n ∈ l, Quiet n) (motive_4 := fun m => PlainM L m → ∀ e ∈ m, Quiet e.2)
    (motive_5 := fun e => Plain L e.2 → Quiet e.2) ?_ ?_ ?_ ?_ ?_ ?_ ?_ ?_ ?_ ?_ ?_ ?_ ?_ ?_ ?_ ?_ n
  · intro s a h; simp only [PlainV] at h; subst h; exact .leaf _ _ trivial
  · intro b s a h; simp only [PlainV] at h; subst h; exact .leaf _ _ trivial
  · intro b s a h; simp only [PlainV] at h; subst h; exact .leaf _ _ trivial
  · intro b s a h; simp only [PlainV] at h; obtain ⟨rfl, -⟩ := h; exact .leaf _ _ trivial
  · intro b s a h; simp only [PlainV] at h; obtain ⟨rfl, -⟩ := h; exact .leaf _ _ trivial
  · intro l ih s a h; exact .list _ _ _ h.1 (ih h.2)
  · intro m ih s a h; simp only [PlainV] at h; obtain ⟨rfl, hm, h⟩ := h; exact .map _ _ hm (ih h)
  · intro e s a h; exact h.elim
  · intro n _ s a h; exact h.elim
  · intro n s a h; exact h.elim
  · intro v s a ih h; exact ih s a h
  · intro _ n h; cases h
  · intro n r ih ih' h x hx
    rcases List.mem_cons.1 hx with rfl | hx
    · exact ih h.1
    · exact ih' h.2 x hx
  · intro _ n h; cases h
  · rintro ⟨k, n⟩ r ih ih' h x hx
    rcases List.mem_cons.1 hx with rfl | hx
    · exact ih h.2.1
    · exact ih' h.2.2 x hx
  · intro k n ih h; exact ih h

theorem quiet_fresh {n : Node E} (h : Quiet n) : Fresh "" (strip n) := by
  induction h with
  | leaf v s hv =>
    have : stripV v = v := by cases v <;> simp_all [Scalar, stripV]
    rw [strip, this]
    exact .leaf v hv
  | list l s a ha _ ih =>
    rw [strip, stripV, stripL_eq]
    refine .list _ (fun n hn => ?_)
    obtain ⟨m, hm, rfl⟩ := List.mem_map.1 hn
    exact ih m hm
  | map m s hm _ ih =>
    rw [strip, stripV, stripM_eq]
    refine .map _ ?_ (fun e he => ?_)
    · unfold MapOK mkeys at hm ⊢
      rw [List.map_map]
      exact hm
    · obtain ⟨x, hx, rfl⟩ := List.mem_map.1 he
      exact ih x hx

theorem nodesOf_eq (l : List Doc) : nodesOf (E := E) l = l.map nodeOf := by
  induction l with
  | nil => rfl
  | cons a r ih => simp [nodesOf, ih]

theorem entriesOf_eq (m : List (String × Doc)) : entriesOf (E := E) m = m.map (fun e => (e.1, nodeOf e.2)) := by
  induction m with
  | nil => rfl
  | cons a r ih => obtain ⟨k, n⟩ := a; simp [entriesOf, ih]

theorem quiet_node {n : Node E} (h : Quiet n) : strip n = nodeOf (erase n) := by
  induction h with
  | leaf v s hv => cases v <;> simp_all [Scalar, strip, stripV, erase, eraseV, nodeOf]
  | list l s a ha _ ih =>
    rw [strip, stripV, stripL_eq, erase, eraseV, nodeOf, eraseL_eq, nodesOf_eq, List.map_map]
    congr 2
    exact List.map_congr_left ih
  | map m s hm _ ih =>
    rw [strip, stripV, stripM_eq, erase, eraseV, nodeOf, eraseM_eq, entriesOf_eq, List.map_map]
    congr 2
    exact List.map_congr_left (fun e he => by simp only [Function.comp_apply, ih e he])

theorem quiet_ann {n : Node E} (h : Quiet n) : n.ann = bare ∨ n.ann = bareList := by
  cases h with
  | leaf => exact .inl rfl
  | list _ _ _ ha => exact ha
  | map => exact .inl rfl

theorem quiet_cleanup (f : CleanFn Unit) (hf : f () bare = some (bare, ())) (hf' : f () bareList = some (bareList, ())) {n : Node E} (h : Quiet n) :
    cleanup f () n = n := by
  have hd : ∀ n : Node E, Quiet n → f () n.ann = some (n.ann, ()) := by
    intro n h
    rcases quiet_ann h with h | h <;> rw [h] <;> assumption
  have hr : ∀ n : Node E, n.reann n.ann = n := by intro n; obtain ⟨v, s, a⟩ := n; rfl
  induction h with
  | leaf v s hv => cases v <;> simp only [Scalar] at hv <;> rfl
  | list l s a ha hl ih =>
    rw [cleanup, cleanupVal]
    congr 2
    induction l with
    | nil => rfl
    | cons a r ih' =>
      rw [cleanupList, hd a (hl a (by simp))]
      simp only
      rw [ih a (by simp), hr, ih' (fun n h => hl n (by simp [h])) (fun n h => ih n (by simp [h]))]
  | map m s hm hl ih =>
    rw [cleanup, cleanupVal]
    congr 2
    clear hm
    induction m with
    | nil => rfl
    | cons a r ih' =>
      obtain ⟨k, a⟩ := a
      rw [cleanupMap, hd a (hl (k, a) (by simp))]
      simp only
      rw [ih (k, a) (by simp), hr, ih' (fun n h => hl n (by simp [h])) (fun n h => ih n (by simp [h]))]

theorem quiet_unescape (q : List Char → List Char) (hq : ∀ l, q l ≠ []) (ip : Bool) {n : Node E} (h : Quiet n) (hi : Inert n) :
    unescapeChild q ip n = n ∧ unescapeDoc q ip n = n := by
  induction h with
  | leaf v s hv =>
    cases v <;> simp only [Scalar] at hv
    · exact ⟨rfl, rfl⟩
    · exact ⟨rfl, rfl⟩
    · exact ⟨rfl, rfl⟩
    · exact ⟨rfl, rfl⟩
    · rename_i s
      refine ⟨?_, rfl⟩
      rw [unescapeChild]
      have : unescapeS q ip s = s := by
        unfold unescapeS
        rw [(noOpen_plain q hq ip (hi.texts [] _ s rfl rfl)).2, String.ofList_toList]
      simp only [this, if_true]
  | list l s a ha hl ih =>
    have : unescapeList q ip l = l := by
      have hm : ∀ n ∈ l, unescapeChild q ip n = n := by
        intro n hn
        obtain ⟨i, hi'⟩ := List.mem_iff_getElem?.1 hn
        exact (ih n hn (inert_child hi (.idx i) hi')).1
      clear ih hi hl
      induction l with
      | nil => rfl
      | cons n r ih => rw [unescapeList, hm n (by simp), ih (fun n h => hm n (by simp [h]))]
    exact ⟨by rw [unescapeChild, unescapeVal, this]; all_goals simp, by rw [unescapeDoc, unescapeVal, this]⟩
  | map m s hm hl ih =>
    have hk : ∀ e ∈ m, unescapeKey e.1 = e.1 ∧ unescapeChild q ip e.2 = e.2 := by
      intro e he
      have hg : mget m e.1 = some e.2 := mget_of_mem hm he
      exact ⟨unescapeKey_plain (hi.names [] e.1 e.2 (by rw [List.nil_append, locate]; simp only [Node.val_mk, child, hg]; rfl)),
        (ih e he (inert_child hi (.key e.1) hg)).1⟩
    have : unescapeMap q ip m = m := by
      clear ih hi hl hm
      induction m with
      | nil => rfl
      | cons e r ih =>
        obtain ⟨k, n⟩ := e
        rw [unescapeMap, (hk (k, n) (by simp)).2, ih (fun e h => hk e (by simp [h]))]
    have hany : m.any (fun e => decide (unescapeKey e.1 ≠ e.1)) = false := by
      rw [List.any_eq_false]
      intro e he
      simp [(hk e he).1]
    refine ⟨?_, by rw [unescapeDoc, unescapeVal, this]⟩
    rw [unescapeChild]
    simp only [hany, Bool.false_eq_true, if_false, this]

/-! ### parts of documents -/

/-- a scalar without meaning for the processing, and with a readable text -/
def PartOK (X : YLib) (F : Nat → YText) : Doc → Prop
  | .str s => NoOpen s.toList
  | .int i => -(2^63) ≤ i ∧ i < 2^63
  | .float b => (isNaN b = false ∧ b % 2^63 ≠ 0) ∧ (b = 0x7FF0000000000000 ∨ b = 0xFFF0000000000000 ∨ FloatWritten X F b)
  | _ => True

def NameOK (k : String) : Prop := ¬ SpecialName k ∧ KeyOK k

/-- all parts of a document -/
def AllParts (X : YLib) (F : Nat → YText) (d : Doc) : Prop := DocAll (PartOK X F) NameOK (· < 2^63) d

theorem numbers_child {X : YLib} {F : Nat → YText} {n x : Node E} (h : NumbersOk X F n) (i : Ix) (hx : child n.val i = some x) : NumbersOk X F x :=
  fun p y hy => h (i :: p) y (by rw [locate, hx]; exact hy)

theorem fresh_parts {X : YLib} {F : Nat → YText} {src : String} {n : Node E} (h : Fresh src n) (hi : Inert n) (hn : NumbersOk X F n)
    (hs : Simple (erase n)) : AllParts X F (erase n) := by
  induction h with
  | leaf v hv =>
    cases v <;> simp only [Scalar] at hv
    · trivial
    · trivial
    · exact (hn [] _ rfl).1 _ rfl
    · exact ⟨hi.floats [] _ _ rfl rfl, (hn [] _ rfl).2 _ rfl⟩
    · exact hi.texts [] _ _ rfl rfl
  | list l hl ih =>
    rw [erase, eraseV] at hs ⊢
    refine ⟨hs.1, docAllL_iff.2 (fun d hd => ?_)⟩
    rw [eraseL_eq] at hd
    obtain ⟨x, hx, rfl⟩ := List.mem_map.1 hd
    obtain ⟨i, hi'⟩ := List.mem_iff_getElem?.1 hx
    refine ih x hx (inert_child hi (.idx i) hi') (numbers_child hn (.idx i) hi') (SimpleL_iff.1 hs.2 _ ?_)
    rw [eraseL_eq]; exact hd
  | map m hm hl ih =>
    rw [erase, eraseV] at hs ⊢
    refine docAllM_iff.2 (fun e he => ?_)
    have hs' := SimpleM_iff.1 hs e he
    rw [eraseM_eq] at he
    obtain ⟨x, hx, rfl⟩ := List.mem_map.1 he
    have hg : mget m x.1 = some x.2 := mget_of_mem hm hx
    exact ⟨⟨hi.names [] x.1 x.2 (by rw [List.nil_append, locate]; simp only [Node.val_mk, child, hg]; rfl), hs'.1⟩,
      ih x hx (inert_child hi (.key x.1) hg) (numbers_child hn (.key x.1) hg) hs'.2⟩

theorem quiet_child {Q : Doc → Prop} {K : String → Prop} {W : Nat → Prop} {n x : Node E} (h : Quiet n) (hd : DocAll Q K W (erase n)) (i : Ix)
    (hx : child n.val i = some x) : Quiet x ∧ DocAll Q K W (erase x) ∧ ∀ k, i = .key k → K k := by
  cases h with
  | leaf v s hv => cases v <;> simp only [Scalar] at hv <;> cases i <;> cases hx
  | list l s a ha h =>
    cases i <;> simp only [Node.val_mk, child, reduceCtorEq] at hx
    have hm := List.mem_of_getElem? hx
    refine ⟨h x hm, docAllL_iff.1 hd.2 _ ?_, by simp⟩
    rw [eraseL_eq]; exact List.mem_map_of_mem hm
  | map m s hm h =>
    cases i <;> simp only [Node.val_mk, child, reduceCtorEq] at hx
    rename_i k
    have hm := mget_some_mem hx
    have := docAllM_iff.1 hd (k, erase x) (by rw [eraseM_eq]; exact List.mem_map.2 ⟨_, hm, rfl⟩)
    refine ⟨h _ hm, this.2, ?_⟩
    rintro k' he
    cases he
    exact this.1

theorem quiet_locate {Q : Doc → Prop} {K : String → Prop} {W : Nat → Prop} (p : List Ix) : ∀ {n x : Node E}, Quiet n → DocAll Q K W (erase n) →
    locate n p = some x → Quiet x ∧ DocAll Q K W (erase x) := by
  induction p with
  | nil => intro n x h hd hx; cases hx; exact ⟨h, hd⟩
  | cons i p ih =>
    intro n x h hd hx
    rw [locate] at hx
    split at hx
    · rename_i c hc
      obtain ⟨h1, h2, -⟩ := quiet_child h hd i hc
      exact ih h1 h2 hx
    · cases hx

theorem parts_inert {X : YLib} {F : Nat → YText} {n : Node E} (h : Quiet n) (hd : AllParts X F (erase n)) : Inert n ∧ NumbersOk X F n := by
  refine ⟨⟨fun p x s hx hs => ?_, fun p k x hx => ?_, fun p x b hx hb => ?_⟩, fun p x hx => ⟨fun i hi => ?_, fun b hb => ?_⟩⟩
  · have := (quiet_locate p h hd hx).2
    obtain ⟨v, s', a⟩ := x
    cases hs
    exact this
  · rw [locate_snoc] at hx
    obtain ⟨y, hy, hx⟩ := Option.bind_eq_some_iff.1 hx
    obtain ⟨h1, h2⟩ := quiet_locate p h hd hy
    exact ((quiet_child h1 h2 _ hx).2.2 k rfl).1
  · have := (quiet_locate p h hd hx).2
    obtain ⟨v, s', a⟩ := x
    cases hb
    exact this.1
  · have := (quiet_locate p h hd hx).2
    obtain ⟨v, s', a⟩ := x
    cases hi
    exact this
  · have := (quiet_locate p h hd hx).2
    obtain ⟨v, s', a⟩ := x
    cases hb
    exact this.2

theorem fresh_quiet {src : String} {n : Node E} (h : Fresh src n) : Quiet n := by
  induction h with
  | leaf v hv => exact .leaf _ _ hv
  | list l _ ih => exact .list _ _ _ (.inl rfl) ih
  | map m hm _ ih => exact .map _ _ hm ih

theorem erase_nodeOf (d : Doc) : erase (nodeOf d : Node E) = d := by
  refine Doc.rec (motive_1 := fun d => erase (nodeOf d : Node E) = d) (motive_2 := fun l => eraseL (nodesOf l : List (Node E)) = l)
    (motive_3 := fun m => eraseM (entriesOf m : List (String × Node E)) = m) (motive_4 := fun e => erase (nodeOf e.2 : Node E) = e.2) ?_ ?_ ?_ ?_ ?_ ?_ ?_ ?_ ?_ ?_ ?_ ?_ d
  · rfl
  · intro b; rfl
  · intro b; rfl
  · intro b; rfl
  · intro b; rfl
  · intro l ih; rw [nodeOf, erase, eraseV, ih]
  · intro l ih; rw [nodeOf, erase, eraseV, ih]
  · rfl
  · intro d r ih ih'; rw [nodesOf, eraseL, ih, ih']
  · rfl
  · rintro ⟨k, d⟩ r ih ih'; rw [entriesOf, eraseM, ih, ih']
  · intro k d ih; exact ih

theorem textOf_strip (X : YLib) (F : Nat → YText) (n : Node E) : textOf X F (strip n) = textOf X F n := by
  unfold textOf marshal
  rw [encode_strip, strip_val]
  have : (stripV n.val).isNil = n.val.isNil := by cases n.val <;> rfl
  rw [this]

/-! ### the run -/

section
variable [DecidableEq E] (X : YLib) (F J : Nat → YText) (L : Lang E) (hq : ∀ l, L.quote l ≠ [])
  (hL : ∀ k, L.requireTemplate k = true → ∃ r, k.toList = '<' :: '<' :: r) (C : CmdLib E S) (envOf : S → Env E)

include hq hL in
/-- the stubs -/
theorem stubs_prepared (stubs : List (Node E)) (h : ∀ n ∈ stubs, ∃ src, Fresh src n ∧ Inert n ∧ NumbersOk X F n ∧ Simple (erase n) ∧ NamesOK (erase n)) :
    ∃ prep N, (∀ p ∈ prep, Plain L p ∧ AllParts X F (erase p)) ∧ prep.map erase = effective (stubs.map erase) ∧
      ∀ fuel ≥ N, ∀ passes s, ∃ s', prepareAll (textLib X F J L fuel (passes + 3) C envOf) false s stubs = (s', some prep) := by
  induction stubs with
  | nil => exact ⟨[], 0, by simp, rfl, fun fuel _ passes s => ⟨s, rfl⟩⟩
  | cons x rest ih =>
    obtain ⟨prep, N, h1, h2, h3⟩ := ih (fun n hn => h n (by simp [hn]))
    obtain ⟨src, f1, f2, f3, f4, f5⟩ := h x (by simp)
    obtain ⟨r, M, g1, g2, g3⟩ := merge_uniform L prep x (inert_plain L hq hL f1 f2) f4 f5 (fun s hs => (h1 s hs).1)
      (fun s hs => docAll_simple (fun _ h => h.2) _ (h1 s hs).2)
    have hpr : AllParts X F (erase r) := by
      rw [g2]
      refine docAll_overlay (fun d hd => ?_) _ _ _ (fresh_parts f1 f2 f3 f4)
      obtain ⟨p, hp, rfl⟩ := List.mem_map.1 hd
      exact (h1 p hp).2
    refine ⟨r :: prep, max N M, ?_, ?_, fun fuel hf passes s => ?_⟩
    · intro p hp
      rcases List.mem_cons.1 hp with rfl | hp
      · exact ⟨g1, hpr⟩
      · exact h1 p hp
    · rw [List.map_cons, List.map_cons, effective, g2, h2]
    · obtain ⟨s', hs'⟩ := h3 fuel (by omega) passes s
      refine ⟨C.reset s', ?_⟩
      rw [prepareAll, hs']
      have : (textLib X F J L fuel (passes + 3) C envOf).flow (C.reset s') x prep = (C.reset s', r, none) := by
        change flowBytes L fuel (passes + 3) envOf (C.reset s') x prep = _
        unfold flowBytes
        rw [g3 { envOf (C.reset s') with stubs := prep, stubPath := [], nomerge := false, sourceName := x.src, currentSourceName := x.src } rfl rfl rfl fuel
          (by omega) passes]
      simp only
      rw [show (textLib X F J L fuel (passes + 3) C envOf).reset s' = C.reset s' from rfl, this]
      simp only
      rw [quiet_cleanup discardLocal rfl rfl (plain_quiet L r g1)]

include hq hL in
/-- one document -/
theorem one_merged (prep : List (Node E)) (hp : ∀ p ∈ prep, Plain L p ∧ AllParts X F (erase p)) {src : String} {n : Node E} (h : Fresh src n) (hi : Inert n)
    (hn : NumbersOk X F n) (hs : Simple (erase n)) (hm : NamesOK (erase n)) (hmap : ∃ m, n.val = .map m) (hF : ∀ b, F b ≠ [] ∧ '\n' ∉ F b) :
    ∃ (r : Node E) (N : Nat), Quiet r ∧ AllParts X F (erase r) ∧ (∃ m, r.val = .map m) ∧ erase r = Spec.merge (prep.map erase) (erase n) ∧
      ∀ fuel ≥ N, ∀ passes w j ft s fs, j.opts = {} → j.json = false → j.split = false → j.subpath = "" → j.selection = [] → j.statePath = "" → j.expr = "" →
        ∃ s', oneDoc (textLib X F J L fuel (passes + 3) C envOf) w j ft prep s fs n = (s', fs, .ok [(textOf X F r).map utf8Out]) := by
  obtain ⟨r, N, g1, g2, g3⟩ := merge_uniform L prep n (inert_plain L hq hL h hi) hs hm (fun s hs => (hp s hs).1)
    (fun s hs => docAll_simple (fun _ h => h.2) _ (hp s hs).2)
  have hpr : AllParts X F (erase r) := by
    rw [g2]
    refine docAll_overlay (fun d hd => ?_) _ _ _ (fresh_parts h hi hn hs)
    obtain ⟨p, hp', rfl⟩ := List.mem_map.1 hd
    exact (hp p hp').2
  have hqr := plain_quiet L r g1
  obtain ⟨hir, hnr⟩ := parts_inert hqr hpr
  have hrm : ∃ m, r.val = .map m := by
    obtain ⟨m, hm⟩ := hmap
    obtain ⟨v, s, a⟩ := n
    cases hm
    rw [erase, eraseV, Spec.merge, overlay] at g2
    cases hqr with
    | leaf v s hv => cases v <;> simp only [Scalar] at hv <;> cases g2
    | list => cases g2
    | map => exact ⟨_, rfl⟩
  refine ⟨r, N, hqr, hpr, hrm, g2, fun fuel hf passes w j ft s fs j1 j2 j3 j4 j5 j6 j7 => ?_⟩
  have hnn : n.val.isNil = false := by obtain ⟨m, hm⟩ := hmap; rw [hm]; rfl
  have hrn : r.val.isNil = false := by obtain ⟨m, hm⟩ := hrm; rw [hm]; rfl
  have hra : r.ann = bare := by
    cases hqr with
    | leaf => rfl
    | list l s a => obtain ⟨m, hm⟩ := hrm; cases hm
    | map => rfl
  obtain ⟨t, ht⟩ : ∃ t, marshal X F r = some t := by
    obtain ⟨t, ht⟩ := (inert_writable X hF (quiet_fresh hqr) (parts_inert (fresh_quiet (quiet_fresh hqr)) (by rw [quiet_node hqr, erase_nodeOf]; exact hpr)).1
      (parts_inert (fresh_quiet (quiet_fresh hqr)) (by rw [quiet_node hqr, erase_nodeOf]; exact hpr)).2
      (by intro s hs; obtain ⟨m, hm⟩ := hrm; rw [strip_val, hm] at hs; cases hs)).2
    exact ⟨t, by unfold marshal at ht ⊢; rw [encode_strip] at ht; exact ht⟩
  unfold oneDoc
  rw [hnn, if_neg Bool.false_ne_true, j1]
  have ha : applyDoc (textLib X F J L fuel (passes + 3) C envOf) (ft.enabled "interpolation") {} prep s n = (C.push s r, r, none) := by
    unfold applyDoc
    have : (textLib X F J L fuel (passes + 3) C envOf).flow s n prep = (s, r, none) := by
      change flowBytes L fuel (passes + 3) envOf s n prep = _
      unfold flowBytes
      rw [g3 { envOf s with stubs := prep, stubPath := [], nomerge := false, sourceName := n.src, currentSourceName := n.src } rfl rfl rfl fuel hf passes]
    rw [this]
    simp only [Bool.false_eq_true, if_false, quiet_cleanup discardTemporary rfl rfl hqr]
    rw [show (textLib X F J L fuel (passes + 3) C envOf).quote = L.quote from rfl, (quiet_unescape L.quote hq _ hqr hir).2]
    rfl
  have hflow : flowedDoc (textLib X F J L fuel (passes + 3) C envOf) (ft.enabled "interpolation") {} prep s n = (C.push s r, .ok (some r)) := by
    unfold flowedDoc
    rw [ha]
    simp only [Option.isSome_none, Bool.and_false, Bool.false_eq_true, if_false, hra]
    rfl
  rw [hflow]
  refine ⟨C.push s r, ?_⟩
  simp only [takePath, if_true, writeState, finishDoc, evaluateExpr, selectFields, Except.bind, renderDoc, renderText, Bool.false_eq_true, if_false, j2, j3, j4, j5, j6, j7]
  rw [show (textLib X F J L fuel (passes + 3) C envOf).yaml r = (marshal X F r).map utf8Out from rfl, ht, textOf, hrn, if_neg Bool.false_ne_true, ht]
  rfl

include hq hL in
/-- all documents -/
theorem all_merged (hF : ∀ b, F b ≠ [] ∧ '\n' ∉ F b) (prep : List (Node E)) (hp : ∀ p ∈ prep, Plain L p ∧ AllParts X F (erase p)) (docs : List (Node E))
    (h : ∀ n ∈ docs, ∃ src, Fresh src n ∧ Inert n ∧ NumbersOk X F n ∧ Simple (erase n) ∧ NamesOK (erase n) ∧ ∃ m, n.val = .map m) :
    ∃ (rs : List (Node E)) (N : Nat), List.Forall₂ (fun (n r : Node E) => Quiet r ∧ AllParts X F (erase r) ∧ (∃ m, r.val = .map m) ∧ erase r = Spec.merge (prep.map erase) (erase n)) docs rs ∧
      ∀ fuel ≥ N, ∀ passes w j ft s fs, j.opts = {} → j.json = false → j.split = false → j.subpath = "" → j.selection = [] → j.statePath = "" → j.expr = "" →
        allDocs (textLib X F J L fuel (passes + 3) C envOf) w j ft prep s fs docs = (fs, .ok (rs.map (fun n => (textOf X F n).map utf8Out))) := by
  induction docs with
  | nil => exact ⟨[], 0, .nil, fun _ _ _ _ _ _ _ _ _ _ _ _ _ _ _ => rfl⟩
  | cons n rest ih =>
    obtain ⟨rs, N, h1, h2⟩ := ih (fun n hn => h n (by simp [hn]))
    obtain ⟨src, f1, f2, f3, f4, f5, f6⟩ := h n (by simp)
    obtain ⟨r, M, g1, g2, g3, g4, g5⟩ := one_merged X F J L hq hL C envOf prep hp f1 f2 f3 f4 f5 f6 hF
    refine ⟨r :: rs, max N M, .cons ⟨g1, g2, g3, g4⟩ h1, fun fuel hf passes w j ft s fs j1 j2 j3 j4 j5 j6 j7 => ?_⟩
    obtain ⟨s', hs⟩ := g5 fuel (by omega) passes w j ft s fs j1 j2 j3 j4 j5 j6 j7
    rw [allDocs, hs]
    simp only
    rw [h2 fuel (by omega) passes w j ft s' fs j1 j2 j3 j4 j5 j6 j7]
    rfl

end

/-- **C90**: Merging files without expressions: the output is a text of the documents of the template, every scalar field replaced by the value which the
effective stubs have at its path. -/
theorem merge_texts [DecidableEq E] (X : YLib) (F J : Nat → YText) (hF : ∀ b, F b ≠ [] ∧ '\n' ∉ F b) (L : Lang E) (hq : ∀ l, L.quote l ≠ [])
    (hL : ∀ k, L.requireTemplate k = true → ∃ r, k.toList = '<' :: '<' :: r) (C : CmdLib E S) (envOf : S → Env E)
    (w : Surroundings) (f : String) (files : List String) (hone : (f :: files).count "-" ≤ 1) (fuel passes : Nat) (b : Bytes) (hb : TextOf w f b)
    (docs stubs : List (Node E)) (hdocs : DocsOf (textLib X F J L fuel passes C envOf) f b docs)
    (hstubs : List.Forall₂ (DocOf (textLib X F J L fuel passes C envOf) w) files stubs)
    (hd : ∀ n ∈ docs ++ stubs, Inert n ∧ NumbersOk X F n ∧ Simple (erase n) ∧ NamesOK (erase n))
    (hmap : ∀ n ∈ docs, ∃ m, n.val = .map m) :
    ∃ out N, ∀ fuel ≥ N, ∀ passes ≥ 3,
      mergeMain (textLib X F J L fuel passes C envOf) w { template := f, stubs := files } [] = ⟨out, w.fs, none⟩ ∧
      ∀ file, ∃ again, DocsOf (textLib X F J L fuel passes C envOf) file out again ∧
        List.Forall₂ (fun n r => SameContent (nodeOf (Spec.merge (effective (stubs.map erase)) (erase n)) : Node E) r) docs again := by
  have hmore : ∀ (file : String) (b : Bytes) (docs : List (Node E)), DocsOf (textLib X F J L fuel passes C envOf) file b docs →
      (∀ n ∈ docs, Fresh file n) ∧ docs ≠ [] ∧ ∀ g ≥ fuel, ∀ k, DocsOf (textLib X F J L g k C envOf) file b docs := by
    intro file b docs hdocs
    obtain ⟨ds, hds, hdocs'⟩ := Option.bind_eq_some_iff.1 ((parseMulti_iff _ file b docs).2 hdocs)
    rw [sanitizeAll_eq] at hdocs'
    change decodeBytes X fuel _ = some ds at hds
    refine ⟨sanitizeL_fresh file (decodeBytes_maps X _ _ ds hds) docs hdocs', ?_, fun g hg k => ?_⟩
    · rintro rfl
      refine decode_some X hds ?_
      have := ((sanitizeL_iff file ds ([] : List (Node E))).1 hdocs').1
      exact List.length_eq_zero_iff.1 this
    · rw [← parseMulti_iff]
      unfold parseMulti
      change (decodeBytes X g _).bind _ = _
      rw [decode_more X hg hds, Option.bind_some, sanitizeAll_eq, hdocs']
  obtain ⟨hfd, hne, hdg⟩ := hmore f b docs hdocs
  have hfs : (∀ n ∈ stubs, ∃ src, Fresh src n) ∧ ∀ g ≥ fuel, ∀ k, List.Forall₂ (DocOf (textLib X F J L g k C envOf) w) files stubs := by
    clear hd
    clear hone
    induction hstubs with
    | nil => exact ⟨by simp, fun _ _ _ => .nil⟩
    | @cons file n fr nr h _ ih =>
      obtain ⟨b, hb, hdo⟩ := h
      obtain ⟨h1, -, h3⟩ := hmore file b [n] hdo
      refine ⟨fun x hx => ?_, fun g hg k => .cons ⟨b, hb, h3 g hg k⟩ (ih.2 g hg k)⟩
      rcases List.mem_cons.1 hx with rfl | hx
      · exact ⟨file, h1 x (by simp)⟩
      · exact ih.1 x hx
  obtain ⟨hfs, hsg⟩ := hfs
  obtain ⟨prep, N1, p1, p2, p3⟩ := stubs_prepared X F J L hq hL C envOf stubs (fun n hn => by
    obtain ⟨src, h⟩ := hfs n hn
    obtain ⟨h1, h2, h3, h4⟩ := hd n (by simp [hn])
    exact ⟨src, h, h1, h2, h3, h4⟩)
  obtain ⟨rs, N2, r1, r2⟩ := all_merged X F J L hq hL C envOf hF prep p1 docs (fun n hn => by
    obtain ⟨h1, h2, h3, h4⟩ := hd n (by simp [hn])
    exact ⟨f, hfd n hn, h1, h2, h3, h4, hmap n hn⟩)
  rw [p2] at r1
  have hw : ∀ n ∈ rs.map strip, Writable X F n ∧ ∃ t, marshal X F n = some t := by
    intro n hn
    obtain ⟨r, hr, rfl⟩ := List.mem_map.1 hn
    obtain ⟨i, hi⟩ := List.mem_iff_getElem?.1 hr
    have hlt : i < docs.length := by rw [r1.length_eq]; exact (List.getElem?_eq_some_iff.1 hi).1
    obtain ⟨hi1, hi2⟩ := List.getElem?_eq_some_iff.1 hi
    have hc := (List.forall₂_iff_get.1 r1).2 i hlt hi1
    simp only [List.get_eq_getElem, hi2] at hc
    obtain ⟨q1, q2, q3, -⟩ := hc
    have hpp := parts_inert (X := X) (F := F) (fresh_quiet (quiet_fresh q1)) (by rw [quiet_node q1, erase_nodeOf]; exact q2)
    refine inert_writable X hF (quiet_fresh q1) hpp.1 hpp.2 ?_
    intro s hs
    obtain ⟨m, hm⟩ := q3
    rw [strip_val, hm] at hs
    cases hs
  have hne' : rs.map strip ≠ [] := by
    intro h
    have := congrArg List.length h
    rw [List.length_map, ← r1.length_eq] at this
    exact hne (List.length_eq_zero_iff.1 this)
  obtain ⟨N3, ds', hblank, hdec, hns⟩ := printed_data X hF (rs.map strip) hne' (fun n hn => (hw n hn).1) ((rs.map strip).map (textOf X F))
    (printed_as X _ (fun n hn => (hw n hn).2))
  have htext : (rs.map strip).map (textOf X F) = rs.map (textOf X F) := by
    rw [List.map_map]
    exact List.map_congr_left (fun n _ => textOf_strip X F n)
  rw [htext] at hblank hdec
  refine ⟨utf8Out (printDocuments (rs.map (textOf X F))), max (max fuel N1) (max N2 N3), fun g hg k hk => ⟨?_, fun file => ?_⟩⟩
  · obtain ⟨k, rfl⟩ : ∃ i, k = i + 3 := ⟨k - 3, by omega⟩
    have hi : ∃ c ft, readInputs (textLib X F J L g (k + 3) C envOf) w { template := f, stubs := files } false [] = .ok ⟨docs, stubs, c, ft⟩ := by
      have ht : readTemplate w false f = .ok (b, decide (f = "-")) := by
        unfold TextOf at hb
        unfold readTemplate
        split at hb
        · rename_i hf
          subst hb
          rw [if_pos hf]; simp [hf]
        · rename_i hf
          rw [if_neg hf, (readFile_iff w f b).2 hb]
          simp [hf, orFatal, Except.map]
      have hc : ∃ c, cmdContext (E := E) none (envFlags w.envFeatures) [] docs.length = .ok c := by
        unfold cmdContext
        split
        · exact ⟨_, rfl⟩
        · exact ⟨_, rfl⟩
      obtain ⟨c, hc⟩ := hc
      have hst : readStubs (textLib X F J L g (k + 3) C envOf) w (decide (f = "-")) files = .ok stubs := by
        rw [readStubs_ok]
        refine ⟨hsg g (by omega) _, ?_⟩
        by_cases hf : f = "-"
        · subst hf
          rw [List.count_cons_self] at hone
          simp only [decide_true, if_true]
          omega
        · rw [List.count_cons_of_ne (by simpa using hf)] at hone
          simpa [hf] using hone
      refine ⟨c, envFlags w.envFeatures, ?_⟩
      unfold readInputs
      simp only [ht, Except.bind, (parseMulti_iff _ f b docs).2 (hdg g (by omega) (k + 3)), orFatal, readState, readYAML, if_true, defineValues, readTags,
        hst, cmdFeatures, List.flatMap_nil, setFlags, Except.map, Bool.false_eq_true, if_false, hc]
      rw [show ([] ++ stubs ++ (none : Option (Node E)).toList) = stubs by simp]
    obtain ⟨c, ft, hi⟩ := hi
    unfold mergeMain
    rw [show createValues [] = some [] from rfl]
    simp only
    unfold mergeCmd
    rw [show ({ template := f, stubs := files, values := [] } : Job) = { template := f, stubs := files } from rfl, hi]
    simp only
    obtain ⟨s', hs'⟩ := p3 g (by omega) k ((textLib X F J L g (k + 3) C envOf).start c)
    rw [hs']
    simp only
    rw [r2 g (by omega) k w _ ft _ w.fs rfl rfl rfl rfl rfl rfl rfl]
    simp only [conclude]
    rw [← print_bytes, List.map_map]
    rfl
  · obtain ⟨ns, h1, h2, h3⟩ := hns file
    refine ⟨ns, (parseMulti_iff _ file _ ns).1 ?_, ?_⟩
    · unfold parseMulti
      rw [hblank, if_neg Bool.false_ne_true]
      change (decodeBytes X g _).bind _ = _
      rw [hdec g (by omega), Option.bind_some, sanitizeAll_eq, h1]
    · rw [List.forall₂_map_left_iff] at h2
      rw [List.forall₂_iff_get] at r1 h2 ⊢
      refine ⟨r1.1.trans h2.1, fun i hi hi' => ?_⟩
      have hir : i < rs.length := by rw [h2.1]; exact hi'
      obtain ⟨q1, -, -, q4⟩ := r1.2 i hi hir
      have := h2.2 i hir hi'
      rw [quiet_node q1, q4] at this
      exact this

/-! ### a concrete run -/

def mergeTemplate : Bytes := asciiBytes "a: 1\nl:\n- {name: x1, v: 1}\n- {v: 2, name: x2}\nm: {p: [1], q: }\n"
def mergeStub1 : Bytes := asciiBytes "m: {p: no}\nl: [{name: x2, v: 7}]"
def mergeStub2 : Bytes := asciiBytes "m:\n  p: 8\n  q: {z: 1.5}\na: two\n"

def mergeTextLib (fuel : Nat) : CmdLib Unit Unit := textLib writeExampleLib writeExampleF writeExampleF dataLang fuel 3 toyLib (fun _ => {})

theorem merge_text_example : shown (mergeMain (mergeTextLib 60) { fs := [("t", mergeTemplate), ("s", mergeStub1)], stdin := mergeStub2 }
      { template := "t", stubs := ["s", "-"] } []) =
    (asciiBytes "a: two\nl:\n- name: x1\n  v: 1\n- name: x2\n  v: 7\nm:\n  p:\n  - 1\n  q:\n    z: 1.5\n", [("t", mergeTemplate), ("s", mergeStub1)], none) := by
  decide +kernel

mutual
/-- a test for the conditions on names -/
def namesB : Doc → Bool
  | .list l => decide (l.length < 2^63) && (!l.all hasName || allNamed l) && namesBL l
  | .map m => namesBM m
  | .nil => true
  | .bool _ => true
  | .int _ => true
  | .float _ => true
  | .str _ => true
termination_by structural d => d
def namesBL : List Doc → Bool
  | [] => true
  | d :: r => namesB d && namesBL r
termination_by structural d => d
def namesBM : List (String × Doc) → Bool
  | [] => true
  | (k, d) :: r => (listIndex k.toList).isNone && (splitColon k.toList).isNone && namesB d && namesBM r
termination_by structural d => d
end

theorem namesB_ok (d : Doc) : namesB d = true → Simple d ∧ NamesOK d := by
  refine Doc.rec (motive_1 := fun d => namesB d = true → Simple d ∧ NamesOK d) (motive_2 := fun l => namesBL l = true → SimpleL l ∧ NamesOKL l)
    (motive_3 := fun m => namesBM m = true → SimpleM m ∧ NamesOKM m) (motive_4 := fun e => namesB e.2 = true → Simple e.2 ∧ NamesOK e.2)
    ?_ ?_ ?_ ?_ ?_ ?_ ?_ ?_ ?_ ?_ ?_ ?_ d
  · intro _; exact ⟨trivial, trivial⟩
  · intro _ _; exact ⟨trivial, trivial⟩
  · intro _ _; exact ⟨trivial, trivial⟩
  · intro _ _; exact ⟨trivial, trivial⟩
  · intro _ _; exact ⟨trivial, trivial⟩
  · intro l ih h
    rw [namesB, Bool.and_eq_true, Bool.and_eq_true] at h
    obtain ⟨h1, h2⟩ := ih h.2
    refine ⟨⟨of_decide_eq_true h.1.1, h1⟩, fun hn => ?_, h2⟩
    have := h.1.2
    rw [hn] at this
    simpa using this
  · intro m ih h; exact ih h
  · intro _; exact ⟨trivial, trivial⟩
  · intro d r ih ih' h
    rw [namesBL, Bool.and_eq_true] at h
    obtain ⟨h1, h2⟩ := ih h.1
    obtain ⟨h3, h4⟩ := ih' h.2
    exact ⟨⟨h1, h3⟩, h2, h4⟩
  · intro _; exact ⟨trivial, trivial⟩
  · rintro ⟨k, d⟩ r ih ih' h
    rw [namesBM, Bool.and_eq_true, Bool.and_eq_true, Bool.and_eq_true] at h
    obtain ⟨h1, h2⟩ := ih h.1.2
    obtain ⟨h3, h4⟩ := ih' h.2
    exact ⟨⟨⟨Option.isNone_iff_eq_none.1 h.1.1.1, Option.isNone_iff_eq_none.1 h.1.1.2⟩, h1, h3⟩, h2, h4⟩
  · intro k d ih h; exact ih h

/-- the documents of the inputs -/
def mergeExampleDocs (name : String) (b : Bytes) : List (Node Unit) := (parseMulti (mergeTextLib 60) name b).getD []

/-- the hypotheses of `merge_texts` are met -/
theorem merge_text_example_ok : (parseMulti (mergeTextLib 60) "t" mergeTemplate = some (mergeExampleDocs "t" mergeTemplate) ∧
      parseMulti (mergeTextLib 60) "s" mergeStub1 = some (mergeExampleDocs "s" mergeStub1) ∧
      parseMulti (mergeTextLib 60) "-" mergeStub2 = some (mergeExampleDocs "-" mergeStub2)) ∧
    ((mergeExampleDocs "t" mergeTemplate).map (fun n => n.val matches .map _) = [true] ∧ (mergeExampleDocs "s" mergeStub1).length = 1 ∧
      (mergeExampleDocs "-" mergeStub2).length = 1) ∧
    ∀ n ∈ mergeExampleDocs "t" mergeTemplate ++ (mergeExampleDocs "s" mergeStub1 ++ mergeExampleDocs "-" mergeStub2),
      Inert n ∧ NumbersOk writeExampleLib writeExampleF n ∧ Simple (erase n) ∧ NamesOK (erase n) := by
  have some_of : ∀ (f : String) (b : Bytes), (parseMulti (mergeTextLib 60) f b).isSome = true → parseMulti (mergeTextLib 60) f b = some (mergeExampleDocs f b) := by
    intro f b h
    unfold mergeExampleDocs
    cases hp : parseMulti (mergeTextLib 60) f b with
    | none => rw [hp] at h; cases h
    | some l => rfl
  have h1 : ∀ n ∈ mergeExampleDocs "t" mergeTemplate ++ (mergeExampleDocs "s" mergeStub1 ++ mergeExampleDocs "-" mergeStub2),
      (inertB n && namesB (erase n)) = true := by
    rw [← List.all_eq_true]
    decide +kernel
  refine ⟨⟨some_of _ _ (by decide +kernel), some_of _ _ (by decide +kernel), some_of _ _ (by decide +kernel)⟩,
    ⟨by decide +kernel, by decide +kernel, by decide +kernel⟩, fun n hn => ?_⟩
  have := h1 n hn
  rw [Bool.and_eq_true] at this
  obtain ⟨g1, g2, -⟩ := inertB_ok n this.1
  exact ⟨g1, g2, namesB_ok _ this.2⟩

end Spiff
