import Verif.Lemmas.Stable
/-
C01, C02: merging plain documents.
-/
namespace Spiff
open Spec (Doc Sel)
variable {E : Type} [DecidableEq E]

theorem deepEq_refl_plain {L : Lang E} (n : Node E) : Plain L n → deepEq n n = true := by
  refine Node.rec
    (motive_1 := fun v => ∀ a, PlainV L a v → deepEqV v v = true)
    (motive_2 := fun n => Plain L n → deepEq n n = true)
    (motive_3 := fun l => PlainL L l → deepEqL l l = true)
    (motive_4 := fun m => PlainM L m → ∀ m', (∀ e ∈ m, mget m' e.1 = some e.2) → deepEqM m m' = true)
    (motive_5 := fun e => Plain L e.2 → deepEq e.2 e.2 = true)
    ?_ ?_ ?_ ?_ ?_ ?_ ?_ ?_ ?_ ?_ ?_ ?_ ?_ ?_ ?_ ?_ n
  · intro a _; rfl
  · intro b a _; simp [deepEqV]
  · intro b a _; simp [deepEqV]
  · intro b a h; simp only [PlainV] at h; simp only [deepEqV]; exact floatEq_refl h.2.1
  · intro b a _; simp [deepEqV]
  · intro l ih a h; simp only [PlainV] at h; simp [deepEqV, ih h.2]
  · intro m ih a h
    simp only [PlainV] at h
    simp only [deepEqV, decide_true, Bool.true_and]
    exact ih h.2.2 m (fun e he => mget_of_mem h.2.1 he)
  · intro e a h; exact h.elim
  · intro e _ a h; exact h.elim
  · intro e a h; exact h.elim
  · intro v s a ih h; simp only [deepEq, decide_true, Bool.true_and]; exact ih a h
  · intro _; rfl
  · intro n l ih1 ih2 h; simp only [PlainL] at h; simp [deepEqL, ih1 h.1, ih2 h.2]
  · intro _ _ _; rfl
  · intro e r ih1 ih2 h m' hm
    obtain ⟨k, n⟩ := e
    simp only [PlainM] at h
    have h1 := hm (k, n) (by simp)
    simp only at h1
    simp only [deepEqM, h1, ih1 h.2.1, Bool.true_and]
    exact ih2 h.2.2 m' (fun e he => hm e (by simp [he]))
  · intro k n ih h; exact ih h

theorem deepEq_leaf {v : Val E} {s : String} {a : Ann} {o : Node E} (hv : ∀ l, v ≠ .list l) (hm : ∀ l, v ≠ .map l)
    (ht : ∀ l, v ≠ .templ l) (hf : ∀ b b', v = .float b → o.val = .float b' → FloatOK b ∧ FloatOK b')
    (h : deepEq (.mk v s a) o = true) : o = .mk v s a := by
  obtain ⟨v', s', a'⟩ := o
  simp only [deepEq, Bool.and_eq_true, decide_eq_true_eq] at h
  obtain ⟨⟨rfl, rfl⟩, h⟩ := h
  cases v <;> cases v' <;> simp_all [deepEqV]
  next b b' => exact (floatEq_eq (hf _ _ rfl rfl).1 (hf _ _ rfl rfl).2 h).symm

theorem mkeys_ovM (stubs : List (Node E)) (p : List String) (m : List (String × Node E)) :
    mkeys (ovM stubs p m) = mkeys m := by
  induction m with
  | nil => rfl
  | cons e r ih => obtain ⟨k, n⟩ := e; simp only [ovM, mkeys, List.map_cons] at *; rw [ih]

theorem deepEq_ov {L : Lang E} {stubs : List (Node E)} (hs : ∀ s ∈ stubs, Plain L s) (n : Node E) :
    ∀ so p, Plain L n → deepEq n (ovN stubs so p n) = true → ovN stubs so p n = n := by
  have leaf : ∀ (v : Val E) s a (so : Bool) (p : List String), (∀ l, v ≠ .list l) → (∀ l, v ≠ .map l) → (∀ l, v ≠ .templ l) →
      PlainV L a v →
      deepEq (.mk v s a) (if so then (findInStubs false stubs p).getD (.mk v s a) else .mk v s a) = true →
      (if so then (findInStubs false stubs p).getD (.mk v s a) else .mk v s a) = .mk v s a := by
    intro v s a so p h1 h2 h3 hp h
    refine deepEq_leaf h1 h2 h3 ?_ h
    intro b b' hv ho
    have key : ∀ n : Node E, Plain L n → n.val = .float b' → FloatOK b' := by
      intro n hn hv
      obtain ⟨nv, ns, na⟩ := n
      simp only [Node.val] at hv
      subst hv
      exact hn.2
    subst hv
    refine ⟨hp.2, ?_⟩
    have hp' : Plain L (.mk (.float b) s a) := hp
    cases so with
    | false => exact key _ hp' ho
    | true =>
      simp only [if_true] at ho
      cases hf : findInStubs false stubs p with
      | none => rw [hf] at ho; exact key _ hp' ho
      | some o => rw [hf] at ho; exact key _ (findInStubs_plain hs hf) ho
  refine Node.rec
    (motive_1 := fun v => ∀ so p s a, PlainV L a v → deepEq (.mk v s a) (ovV stubs so p s a v) = true →
      ovV stubs so p s a v = .mk v s a)
    (motive_2 := fun n => ∀ so p, Plain L n → deepEq n (ovN stubs so p n) = true → ovN stubs so p n = n)
    (motive_3 := fun l => ∀ u p i, PlainL L l → deepEqL l (ovL stubs u p i l) = true → ovL stubs u p i l = l)
    (motive_4 := fun m => ∀ p, PlainM L m →
      (∀ e ∈ m, deepEq e.2 (ovN stubs true (p ++ [e.1]) e.2) = true) → ovM stubs p m = m)
    (motive_5 := fun e => ∀ so p, Plain L e.2 → deepEq e.2 (ovN stubs so p e.2) = true → ovN stubs so p e.2 = e.2)
    ?_ ?_ ?_ ?_ ?_ ?_ ?_ ?_ ?_ ?_ ?_ ?_ ?_ ?_ ?_ ?_ n
  · intro so p s a hp h; exact leaf .nil s a so p (by simp) (by simp) (by simp) hp h
  · intro b so p s a hp h; exact leaf (.bool b) s a so p (by simp) (by simp) (by simp) hp h
  · intro b so p s a hp h; exact leaf (.int b) s a so p (by simp) (by simp) (by simp) hp h
  · intro b so p s a hp h; exact leaf (.float b) s a so p (by simp) (by simp) (by simp) hp h
  · intro b so p s a hp h; exact leaf (.str b) s a so p (by simp) (by simp) (by simp) hp h
  · intro l ih so p s a hp h
    simp only [PlainV] at hp
    simp only [ovV, deepEq, deepEqV, Bool.and_eq_true, decide_eq_true_eq] at h
    simp only [ovV, ih _ _ _ hp.2 h.2, ← h.1.2]
  · intro m ih so p s a hp h
    simp only [PlainV] at hp
    simp only [ovV, deepEq, deepEqV, Bool.and_eq_true] at h
    simp only [ovV]
    rw [ih p hp.2.2 ?_]
    have h2 := h.2.2
    have gen : ∀ (r : List (String × Node E)), deepEqM r (ovM stubs p m) = true →
        (∀ e ∈ r, e ∈ m) → ∀ e ∈ r, deepEq e.2 (ovN stubs true (p ++ [e.1]) e.2) = true := by
      intro r
      induction r with
      | nil => intro _ _ e he; simp at he
      | cons x r ihr =>
        intro hr hsub e he
        obtain ⟨k, n⟩ := x
        simp only [deepEqM, Bool.and_eq_true] at hr
        rcases List.mem_cons.1 he with rfl | he
        · have h1 := hr.1
          rw [mget_ovM, mget_of_mem hp.2.1 (hsub (k, n) (by simp))] at h1
          exact h1
        · exact ihr hr.2 (fun e he => hsub e (by simp [he])) e he
    exact gen m h2 (fun e he => he)
  · intro e so p s a h; exact h.elim
  · intro e _ so p s a h; exact h.elim
  · intro e so p s a h; exact h.elim
  · intro v s a ih so p hp h; exact ih so p s a hp h
  · intro u p i _ _; rfl
  · intro n l ih1 ih2 u p i hp h
    simp only [PlainL] at hp
    simp only [ovL, deepEqL, Bool.and_eq_true] at h
    simp only [ovL]
    rw [ih1 _ _ hp.1 h.1, ih2 _ _ _ hp.2 h.2]
  · intro p _ _; rfl
  · intro e r ih1 ih2 p hp h
    obtain ⟨k, n⟩ := e
    simp only [PlainM] at hp
    simp only [ovM]
    rw [ih2 _ hp.2.2 (fun e he => h e (by simp [he]))]
    have := ih1 true (p ++ [k]) hp.2.1 (h (k, n) (by simp))
    simp only at this
    rw [this]
  · intro k n ih so p hp h; exact ih so p hp h

/-- Without stubs nothing is changed by a pass. -/
theorem ovN_nil (n : Node E) : ∀ so p, ovN ([] : List (Node E)) so p n = n := by
  refine Node.rec
    (motive_1 := fun v => ∀ so p s a, ovV ([] : List (Node E)) so p s a v = .mk v s a)
    (motive_2 := fun n => ∀ so p, ovN ([] : List (Node E)) so p n = n)
    (motive_3 := fun l => ∀ u p i, ovL ([] : List (Node E)) u p i l = l)
    (motive_4 := fun m => ∀ p, ovM ([] : List (Node E)) p m = m)
    (motive_5 := fun e => ∀ so p, ovN ([] : List (Node E)) so p e.2 = e.2)
    ?_ ?_ ?_ ?_ ?_ ?_ ?_ ?_ ?_ ?_ ?_ ?_ ?_ ?_ ?_ ?_ n
  · intro so p s a; simp [ovV, findInStubs]
  · intro b so p s a; simp [ovV, findInStubs]
  · intro b so p s a; simp [ovV, findInStubs]
  · intro b so p s a; simp [ovV, findInStubs]
  · intro b so p s a; simp [ovV, findInStubs]
  · intro l ih so p s a; simp [ovV, findInStubs, ih]
  · intro l ih so p s a; simp [ovV, ih]
  · intro b so p s a; rfl
  · intro b _ so p s a; rfl
  · intro b so p s a; rfl
  · intro v s a ih so p; exact ih so p s a
  · intro u p i; rfl
  · intro n l ih1 ih2 u p i; simp [ovL, ih1, ih2]
  · intro p; rfl
  · intro e r ih1 ih2 p
    obtain ⟨k, n⟩ := e
    simp only [ovM, ih2]
    rw [ih1 true (p ++ [k])]
  · intro k n ih so p; exact ih so p

theorem passEnv_stubs (env : Env E) (s : Node E) : (passEnv env s).stubs = env.stubs ∧
    (passEnv env s).stubPath = env.stubPath ∧ (passEnv env s).nomerge = env.nomerge := by
  unfold passEnv
  split <;> exact ⟨rfl, rfl, rfl⟩

/-- One pass over a plain document in an environment as created for a merge. -/
theorem pass_plain (L : Lang E) {env : Env E} (hs : ∀ s ∈ env.stubs, Plain L s) (hp0 : env.stubPath = [])
    (hn : env.nomerge = false) (src : Node E) {n : Node E} (hp : Plain L n) {fuel : Nat} (hf : depth n < fuel)
    (so : Bool) : pass L fuel env src n so = .ok (ovN env.stubs so [] n) := by
  obtain ⟨h1, h2, h3⟩ := passEnv_stubs env src
  unfold pass
  rw [flow_plain L hs fuel n (passEnv env src) so h1 (by rw [h3, hn]) hp hf, h2, hp0]

/-- C01: a plain document processed without stubs is returned as it is, for every
parser, evaluator and processing environment, after any positive number of passes. -/
theorem plain_unchanged (L : Lang E) (doc : Node E) (hp : Plain L doc) (env : Env E) (hs : env.stubs = [])
    (hp0 : env.stubPath = []) (hn : env.nomerge = false) (fuel : Nat) (hf : depth doc < fuel) (so : Bool) (passes : Nat) :
    flowLoop L fuel env doc so (passes + 1) doc = .ok doc := by
  simp only [flowLoop]
  rw [pass_plain L (by simp [hs]) hp0 hn doc hp hf so, hs, ovN_nil]
  simp [bind, Except.bind, (plain_flags hp).2.2.2.2.2, deepEq_refl_plain doc hp, pure, Except.pure]

/-- C02: merging a plain template with plain stubs always ends (after at most three
passes) and the data of the result is the path-wise overlay. -/
theorem merge_plain (L : Lang E) (doc : Node E) (env : Env E)
    (hp : Plain L doc) (hsi : Simple (erase doc)) (hno : NamesOK (erase doc))
    (hs : ∀ s ∈ env.stubs, Plain L s) (hss : ∀ s ∈ env.stubs, Simple (erase s))
    (hp0 : env.stubPath = []) (hn : env.nomerge = false) :
    ∃ fuel₀, ∀ fuel ≥ fuel₀, ∀ passes, ∃ r, flowLoop L fuel env doc true (passes + 3) doc = .ok r ∧ Plain L r ∧
      erase r = Spec.merge (env.stubs.map erase) (erase doc) := by
  -- the documents after one, two passes
  let x1 := ovN env.stubs true [] doc
  let x2 := markN env.stubs [] x1
  have hx1 : Plain L x1 := ovN_plain hs doc true [] hp
  have hst : Stab env.stubs true [] x1 := stab_ov hs hss doc true [] (by simp) hp hsi hno
  obtain ⟨m1, m2, m3⟩ := stab_mark env.stubs x1 true [] hst
  have e2 : ovN env.stubs true [] x1 = x2 := m1
  have hx2 : Plain L x2 := by rw [← e2]; exact ovN_plain hs x1 true [] hx1
  have e3 : ovN env.stubs true [] x2 = x2 := by
    rw [(stab_mark env.stubs x2 true [] m2).1]; exact m3
  have er1 : erase x1 = Spec.merge (env.stubs.map erase) (erase doc) :=
    erase_ovN hs hss doc true [] hp hsi (by simp)
  have er2 : erase x2 = erase x1 := erase_mark env.stubs x1 []
  refine ⟨max (depth doc) (max (depth x1) (depth x2)) + 1, fun fuel hf passes => ?_⟩
  have hd : depth doc < fuel ∧ depth x1 < fuel ∧ depth x2 < fuel := by omega
  have p1 := pass_plain L hs hp0 hn doc hp hd.1 true
  have p2 := pass_plain L hs hp0 hn doc hx1 hd.2.1 true
  have p3 := pass_plain L hs hp0 hn doc hx2 hd.2.2 true
  have u1 := (plain_flags hx1).2.2.2.2.2
  have u2 := (plain_flags hx2).2.2.2.2.2
  rw [show passes + 3 = passes + 1 + 1 + 1 from rfl, flowLoop, p1]
  simp only [bind, Except.bind, pure, Except.pure]
  rw [show ovN env.stubs true [] doc = x1 from rfl] at *
  simp only [u1, Bool.false_eq_true, if_false]
  cases c1 : deepEq doc x1 with
  | true =>
    have : x1 = doc := deepEq_ov (stubs := env.stubs) hs doc true [] hp c1
    simp only [if_true]
    exact ⟨doc, rfl, hp, by rw [← er1, this]⟩
  | false =>
    simp only [Bool.false_eq_true, if_false]
    rw [flowLoop, p2]
    simp only [bind, Except.bind, pure, Except.pure, e2, u2, Bool.false_eq_true, if_false]
    cases c2 : deepEq x1 x2 with
    | true => simp only [if_true]; exact ⟨x1, rfl, hx1, er1⟩
    | false =>
      simp only [Bool.false_eq_true, if_false]
      rw [flowLoop, p3]
      simp only [bind, Except.bind, pure, Except.pure, e3, u2, Bool.false_eq_true, if_false,
        deepEq_refl_plain x2 hx2, if_true]
      exact ⟨x2, rfl, hx2, by rw [er2, er1]⟩

/-! #### non-triviality -/

/-- A language without expressions, used for examples. -/
def noLang : Lang Empty where
  parse _ _ _ := none
  eval e _ := e.elim
  marker e := e.elim
  simpleMerge e := e.elim
  directMerge e := e.elim
  print e := e.elim
  requireTemplate _ := false
  quote s := s
  interpol := false

/-- unannotated node with source "f" -/
def leafN (v : Val Empty) : Node Empty := .mk v "f" bare
def mapN (m : List (String × Node Empty)) : Node Empty := leafN (.map m)
def listN (l : List (Node Empty)) : Node Empty := leafN (.list l)
def strN (s : String) : Node Empty := leafN (.str s)

/-- a plain template with a named list, a nested map and a plain list -/
def exTemplate : Node Empty :=
  mapN [("jobs", listN [mapN [("name", strN "web"), ("size", leafN (.int 1))],
                        mapN [("name", strN "db"), ("size", leafN (.int 2))]]),
        ("a", mapN [("b", leafN (.bool true)), ("c", leafN .nil)]),
        ("l", listN [leafN (.int 1), strN "x"])]
def exStub1 : Node Empty := mapN [("jobs", listN [mapN [("name", strN "db"), ("size", leafN (.int 5))]]), ("new", strN "n")]
def exStub2 : Node Empty :=
  mapN [("jobs", listN [mapN [("name", strN "web"), ("size", leafN (.int 7))],
                        mapN [("name", strN "db"), ("size", leafN (.int 8))]]),
        ("a", mapN [("c", listN [strN "q"])]), ("l", listN [leafN (.int 9)])]

private theorem exT : Plain noLang exTemplate ∧ Simple (erase exTemplate) ∧ NamesOK (erase exTemplate) := by
  refine ⟨?_, ?_, ?_⟩
  · simp [exTemplate, mapN, listN, strN, leafN, Plain, PlainV, PlainM, PlainL, MapOK, mkeys, PlainKey, MERGEKEY]
    decide
  · simp [exTemplate, mapN, listN, strN, leafN, erase, eraseV, eraseM, eraseL, Simple, SimpleM, SimpleL, KeyOK]
    decide
  · simp [exTemplate, mapN, listN, strN, leafN, erase, eraseV, eraseM, eraseL, NamesOK, NamesOKM, NamesOKL,
      hasName, Spec.allNamed, Doc.nameOf, List.lookup]

private theorem exS : ∀ s ∈ [exStub1, exStub2], Plain noLang s ∧ Simple (erase s) := by
  intro s hs
  simp only [List.mem_cons, List.not_mem_nil, or_false] at hs
  rcases hs with rfl | rfl
  · constructor
    · simp [exStub1, mapN, listN, strN, leafN, Plain, PlainV, PlainM, PlainL, MapOK, mkeys, PlainKey, MERGEKEY]
      decide
    · simp [exStub1, mapN, listN, strN, leafN, erase, eraseV, eraseM, eraseL, Simple, SimpleM, SimpleL, KeyOK]
      decide
  · constructor
    · simp [exStub2, mapN, listN, strN, leafN, Plain, PlainV, PlainM, PlainL, MapOK, mkeys, PlainKey, MERGEKEY]
      decide
    · simp [exStub2, mapN, listN, strN, leafN, erase, eraseV, eraseM, eraseL, Simple, SimpleM, SimpleL, KeyOK]
      decide

/-- the specified result of the example: named entries and map fields are overridden,
stub-only fields are not added, plain list entries are kept -/
example : Spec.merge ([exStub1, exStub2].map erase) (erase exTemplate) =
    .map [("jobs", .list [.map [("name", .str "web"), ("size", .int 7)], .map [("name", .str "db"), ("size", .int 5)]]),
          ("a", .map [("b", .bool true), ("c", .list [.str "q"])]),
          ("l", .list [.int 1, .str "x"])] := by
  rfl

example : ∃ fuel₀, ∀ fuel ≥ fuel₀, ∀ passes, ∃ r,
    flowLoop noLang fuel { stubs := [exStub1, exStub2] } exTemplate true (passes + 3) exTemplate = .ok r ∧
    Plain noLang r ∧ erase r = Spec.merge ([exStub1, exStub2].map erase) (erase exTemplate) :=
  merge_plain noLang exTemplate { stubs := [exStub1, exStub2] } exT.1 exT.2.1 exT.2.2
    (fun s h => (exS s h).1) (fun s h => (exS s h).2) rfl rfl

example : flowLoop noLang 5 {} exTemplate true 1 exTemplate = .ok exTemplate :=
  plain_unchanged noLang exTemplate exT.1 {} rfl rfl rfl 5 (by decide) true 0

/-- Why C02 restricts lists whose entries all have a `name` field (`NamesOK`): here the
name given by the first stub makes the entry change its address for the second pass, and the
result (`v: c`) differs from the path-wise overlay (`v: b`). -/
def unnamedT : Node Empty := mapN [("l", listN [mapN [("name", leafN (.int 1)), ("v", leafN (.int 0))]])]
def unnamedS1 : Node Empty := mapN [("l", listN [mapN [("name", strN "x")]])]
def unnamedS2 : Node Empty := mapN [("l", listN [mapN [("name", strN "y"), ("v", strN "b")],
                                                 mapN [("name", strN "x"), ("v", strN "c")]])]
private def unX1 : Node Empty := mapN [("l", .mk (.list [mapN [("name", strN "x"), ("v", strN "b")]]) "f" bareList)]
private def unX2 : Node Empty := mapN [("l", .mk (.list [mapN [("name", strN "x"), ("v", strN "c")]]) "f" bareList)]

private theorem loop3 (L : Lang E) (fuel : Nat) (env : Env E) (src x0 x1 x2 : Node E)
    (p1 : pass L fuel env src x0 true = .ok x1) (p2 : pass L fuel env src x1 true = .ok x2)
    (p3 : pass L fuel env src x2 true = .ok x2) (u1 : x1.ann.undefined = false) (u2 : x2.ann.undefined = false)
    (d1 : deepEq x0 x1 = false) (d2 : deepEq x1 x2 = false) (d3 : deepEq x2 x2 = true) (n : Nat) :
    flowLoop L fuel env src true (n + 1 + 1 + 1) x0 = .ok x2 := by
  rw [flowLoop, p1]
  simp only [bind, Except.bind, u1, d1, Bool.false_eq_true, if_false]
  rw [flowLoop, p2]
  simp only [bind, Except.bind, u2, d2, Bool.false_eq_true, if_false]
  rw [flowLoop, p3]
  simp only [bind, Except.bind, u2, d3, Bool.false_eq_true, if_false, if_true, pure, Except.pure]

private theorem un1 : ovN [unnamedS1, unnamedS2] true [] unnamedT = unX1 := rfl
private theorem un2 : ovN [unnamedS1, unnamedS2] true [] unX1 = unX2 := rfl
private theorem un3 : ovN [unnamedS1, unnamedS2] true [] unX2 = unX2 := rfl
private theorem unS : ∀ s ∈ [unnamedS1, unnamedS2], Plain noLang s := by
  intro s hs
  simp only [List.mem_cons, List.not_mem_nil, or_false] at hs
  rcases hs with rfl | rfl
  · simp [unnamedS1, mapN, listN, strN, leafN, Plain, PlainV, PlainM, PlainL, MapOK, mkeys, PlainKey, MERGEKEY]
    decide
  · simp [unnamedS2, mapN, listN, strN, leafN, Plain, PlainV, PlainM, PlainL, MapOK, mkeys, PlainKey, MERGEKEY]
    decide
private theorem unP0 : Plain noLang unnamedT := by
  simp [unnamedT, mapN, listN, leafN, Plain, PlainV, PlainM, PlainL, MapOK, mkeys, PlainKey, MERGEKEY]
  decide
private theorem unP1 : Plain noLang unX1 := un1 ▸ ovN_plain unS _ true [] unP0
private theorem unP2 : Plain noLang unX2 := un2 ▸ ovN_plain unS _ true [] unP1
private theorem unPass (n : Node Empty) (h : Plain noLang n) (hd : depth n < 9) :
    pass noLang 9 { stubs := [unnamedS1, unnamedS2] } unnamedT n true =
      .ok (ovN [unnamedS1, unnamedS2] true [] n) :=
  pass_plain noLang (env := { stubs := [unnamedS1, unnamedS2] }) unS rfl rfl unnamedT h hd true

theorem unstable_names :
    (flowLoop noLang 9 { stubs := [unnamedS1, unnamedS2] } unnamedT true (6 + 1 + 1 + 1) unnamedT).map erase =
      .ok (.map [("l", .list [.map [("name", .str "x"), ("v", .str "c")]])]) ∧
    Spec.merge ([unnamedS1, unnamedS2].map erase) (erase unnamedT) =
      .map [("l", .list [.map [("name", .str "x"), ("v", .str "b")]])] := by
  refine ⟨?_, rfl⟩
  have p1 := unPass _ unP0 (by decide)
  have p2 := unPass _ unP1 (by decide)
  have p3 := unPass _ unP2 (by decide)
  rw [un1] at p1
  rw [un2] at p2
  rw [un3] at p3
  rw [loop3 noLang 9 _ unnamedT unnamedT unX1 unX2 p1 p2 p3 rfl rfl (by decide) (by decide)
    (deepEq_refl_plain _ unP2) 6]
  rfl

end Spiff
