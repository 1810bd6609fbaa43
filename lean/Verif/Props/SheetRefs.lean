import Verif.Props.Sheet
/-
C94, second part: references in a sheet.
-/
namespace Spiff
open Spec

/-- a node that cannot be used yet -/
def notYet (e : Ex) (n : Node Ex) : Ev := .val (.expr e) { issue := "unresolved", failed := n.ann.failed || n.ann.error }

/-- following a path step by step -/
def enter (e : Ex) : List String → Node Ex → Node Ex ⊕ Ev
  | [], n => if localReady false n.val then .inl n else .inr (notYet e n)
  | k :: r, n => if localReady false n.val then match nextStep false true k n with
      | .found n' => enter e r n'
      | .missing => .inr (Info.error {} "not found")
      | .panic => .inr .crash
    else .inr (notYet e n)

/-- the value of a reference -/
def entered (e : Ex) : Node Ex ⊕ Ev → Ev
  | .inr o => o
  | .inl step => refResult false e false step

theorem findSteps_enter (e : Ex) (look : Nat → Look (Node Ex)) (r : List String) : ∀ (i : Nat) (n last : Node Ex),
    (∀ j ≤ r.length, look (i + j) = findR false true n (r.take j)) → findSteps false e look i (r.length + 1) last = enter e r n := by
  induction r with
  | nil =>
    intro i n last h
    have h0 := h 0 (by simp)
    simp only [Nat.add_zero, List.take_zero, findR] at h0
    simp only [List.length_nil, Nat.zero_add, findSteps, h0, enter, notYet]
  | cons k r ih =>
    intro i n last h
    have h0 := h 0 (by simp)
    simp only [Nat.add_zero, List.take_zero, findR] at h0
    rw [List.length_cons, findSteps, h0]
    simp only [enter]
    split
    · have h1 := h 1 (by simp)
      cases hs : nextStep false true k n with
      | found n' =>
        simp only
        refine ih (i + 1) n' n (fun j hj => ?_)
        have := h (j + 1) (by simpa using hj)
        rw [show i + 1 + j = i + (j + 1) by omega, this]
        simp only [List.take_succ_cons, findR, hs]
      | missing =>
        have h2 : look (i + 1) = .missing := by rw [h1]; simp only [List.take_succ_cons, List.take_zero, findR, hs]
        rw [findSteps, h2]
      | panic =>
        have h2 : look (i + 1) = .panic := by rw [h1]; simp only [List.take_succ_cons, List.take_zero, findR, hs]
        rw [findSteps, h2]
    · rfl

theorem ref_enter {X : EvLib} (hX : X.ctl = false) (b : Bind) (name : String) (p : List String) (n : Node Ex)
    (h : ∀ i ≤ p.length, refLook b (name :: p) i = findR false true n (p.take i)) :
    eval X (Ex.ref (name :: p)) b false = entered (Ex.ref (name :: p)) (enter (Ex.ref (name :: p)) p n) := by
  have h1 : eval X (Ex.ref (name :: p)) b false = refFind X.ctl (Ex.ref (name :: p)) (name :: p).length (refLook b (name :: p)) false := rfl
  rw [h1, hX, refFind, if_neg (by simp), List.length_cons, findSteps_enter _ _ p 0 n _ (by simpa using h)]
  cases enter (Ex.ref (name :: p)) p n <;> rfl

/-! ### plain values -/

theorem strDynaml_plain {q : List Char → List Char} {i : Bool} {s : String} (h : embeddedDynaml q i s.toList = none) : strDynaml s = false := by
  unfold strDynaml
  simp only [embeddedDynaml] at h ⊢
  split at h
  · split at h <;> simp_all
  · simp

theorem complete_plain {L : Lang Ex} (n : Node Ex) : Plain L n → completeN false n = true := by
  refine Node.rec (motive_1 := fun v => ∀ a, PlainV L a v → completeV false v = true) (motive_2 := fun n => Plain L n → completeN false n = true)
    (motive_3 := fun l => PlainL L l → completeL false l = true) (motive_4 := fun m => PlainM L m → completeM false m = true)
    (motive_5 := fun e => Plain L e.2 → completeN false e.2 = true) ?_ ?_ ?_ ?_ ?_ ?_ ?_ ?_ ?_ ?_ ?_ ?_ ?_ ?_ ?_ ?_ n
  · exact fun _ _ => rfl
  · exact fun _ _ _ => rfl
  · exact fun _ _ _ => rfl
  · exact fun _ _ _ => rfl
  · intro s a h; simp only [completeV, strDynaml_plain h.2, Bool.not_false]
  · intro l ih a h; exact ih h.2
  · intro m ih a h; simp only [completeV, isMapResolved_plain h.2.2, ih h.2.2, Bool.and_self]
  · exact fun _ _ h => h.elim
  · exact fun _ _ _ h => h.elim
  · exact fun _ _ h => h.elim
  · exact fun v s a ih h => ih a h
  · exact fun _ => rfl
  · intro n r h1 h2 h; simp only [completeL, h1 h.1, h2 h.2, Bool.and_self]
  · exact fun _ => rfl
  · rintro ⟨k, n⟩ r h1 h2 h; simp only [completeM, h1 h.2.1, h2 h.2.2, Bool.and_self]
  · exact fun k n h => h

theorem complete_of {L : Lang Ex} {n : Node Ex} (h : Plain L n) : completeV false n.val = true := by
  have := complete_plain n h
  cases n
  exact this

theorem ready_plain {L : Lang Ex} {n : Node Ex} (h : Plain L n) : localReady false n.val = true := by
  obtain ⟨v, s, a⟩ := n
  cases v with
  | expr _ => exact h.elim
  | map m => exact isMapResolved_plain h.2.2
  | list l => exact isListResolved_plain h.2
  | _ => rfl

theorem plain_value {L : Lang Ex} {n : Node Ex} (h : Plain L n) : n.val.isExpr = false := by
  obtain ⟨v, s, a⟩ := n
  cases v <;> first | rfl | exact h.elim

theorem enter_plain {L : Lang Ex} (e : Ex) (q : List String) : ∀ (n : Node Ex) (w : Val Ex), Plain L n → dataAt q n.val = some w →
    ∃ step, enter e q n = .inl step ∧ step.val = w ∧ Plain L step := by
  induction q with
  | nil =>
    intro n w h hw
    refine ⟨n, ?_, by simpa [dataAt] using hw, h⟩
    rw [enter, if_pos (ready_plain h)]
  | cons k r ih =>
    intro n w h hw
    obtain ⟨v, s, a⟩ := n
    cases v with
    | map m =>
      simp only [Node.val, dataAt] at hw
      cases hg : mget m k with
      | none => rw [hg] at hw; cases hw
      | some x =>
        rw [hg] at hw
        obtain ⟨step, h1, h2, h3⟩ := ih x w (mget_plain h.2.2 hg).1 hw
        refine ⟨step, ?_, h2, h3⟩
        rw [enter, if_pos (ready_plain h)]
        simp only [nextStep, Node.val, stepMap_plain h.2.2, hg, h1]
    | _ => simp [Node.val, dataAt] at hw

theorem result_plain {L : Lang Ex} (e : Ex) {step : Node Ex} (h : Plain L step) : refResult false e false step = .val step.val {} := by
  unfold refResult
  rw [complete_of h]
  simp only [Bool.not_false, Bool.not_true, Bool.and_false, Bool.false_eq_true, if_false]
  rcases plain_ann h with h | h <;> rw [h] <;> rfl

/-! ### sheets -/

theorem filledM_get {P : Blocks → Cell → Node Ex → Prop} {around : Blocks} {fs : List (String × Sheet)} : ∀ {m : List (String × Node Ex)}, FilledM P around fs m → ∀ k,
    (∀ x, mget fs k = some x → ∃ n, mget m k = some n ∧ Filled P around x n) ∧ (mget fs k = none → mget m k = none) := by
  induction fs with
  | nil =>
    intro m h k
    rw [FilledM] at h
    subst h
    exact ⟨fun _ h => (nomatch h), fun _ => rfl⟩
  | cons e r ih =>
    intro m h k
    obtain ⟨k0, x0⟩ := e
    rw [FilledM] at h
    obtain ⟨n, m', rfl, h1, h2⟩ := h
    simp only [mget]
    by_cases hk : k0 = k
    · simp only [hk, if_true]
      exact ⟨fun x hx => ⟨n, rfl, by cases hx; exact h1⟩, fun h => (nomatch h)⟩
    · simp only [hk, if_false]
      exact ih h2 k

theorem filledM_keys {P : Blocks → Cell → Node Ex → Prop} {around : Blocks} {fs : List (String × Sheet)} : ∀ {m : List (String × Node Ex)}, FilledM P around fs m → mkeys m = mkeys fs := by
  induction fs with
  | nil => intro m h; rw [FilledM] at h; subst h; rfl
  | cons e r ih =>
    intro m h
    obtain ⟨k0, x0⟩ := e
    rw [FilledM] at h
    obtain ⟨n, m', rfl, h1, h2⟩ := h
    have := ih h2
    simp only [mkeys] at this
    simp only [mkeys, List.map_cons, this]

theorem tidyM_get {L : Lang Ex} {fs : List (String × Sheet)} (h : TidyM L fs) : ∀ e ∈ fs, PlainKey L e.1 ∧ Tidy L e.2 := by
  induction fs with
  | nil => intro e he; cases he
  | cons e0 r ih =>
    obtain ⟨k, x⟩ := e0
    rw [TidyM] at h
    intro e he
    rcases List.mem_cons.1 he with rfl | he
    · exact ⟨h.1, h.2.1⟩
    · exact ih h.2.2 e he

theorem block_ready {L : Lang Ex} {P : Blocks → Cell → Node Ex → Prop} {around : Blocks} {fs : List (String × Sheet)} {m : List (String × Node Ex)} (h : FilledM P around fs m) (ht : TidyM L fs) :
    isMapResolved false m = true := by
  have hn : ∀ k, (∀ e ∈ fs, e.1 ≠ k) → mget m k = none := by
    intro k hk
    refine (filledM_get h k).2 ?_
    rw [mget_none_iff]
    intro hm
    obtain ⟨e, he, rfl⟩ := List.mem_map.1 hm
    exact hk e he rfl
  simp [isMapResolved, hn "<<" (fun e he => (tidyM_get ht e he).1.1), hn MERGEKEY (fun e he => (tidyM_get ht e he).1.2.1)]

theorem enter_block {L : Lang Ex} {P : Blocks → Cell → Node Ex → Prop} {around : Blocks} {fs : List (String × Sheet)} {m : List (String × Node Ex)} (h : FilledM P around fs m) (ht : TidyM L fs)
    (e : Ex) (k : String) (p : List String) (s : String) (a : Ann) : enter e (k :: p) (.mk (.map m) s a) = match mget m k with
      | some n => enter e p n
      | none => .inr (Info.error {} "not found") := by
  rw [enter, if_pos (show localReady false (Node.mk (.map m) s a).val = true from block_ready h ht)]
  simp only [nextStep, Node.val, stepMap, Bool.not_true, Bool.false_and, Bool.false_eq_true, if_false]
  cases mget m k <;> rfl

/-- following a path in the nodes of a sheet -/
theorem enter_descend {L : Lang Ex} {P : Blocks → Cell → Node Ex → Prop} (e : Ex) (p : List String) : ∀ {around : Blocks} {x : Sheet} {n : Node Ex}, Filled P around x n → Tidy L x →
    (∀ around' c q, descend p around x = .place around' c q → ∃ n', P around' c n' ∧ enter e p n = enter e q n') ∧
    (descend p around x = .absent → enter e p n = .inr (Info.error {} "not found")) := by
  induction p with
  | nil =>
    intro around x n h ht
    cases x with
    | cell c =>
      rw [Filled] at h
      refine ⟨fun around' c' q hd => ?_, fun hd => ?_⟩
      · simp only [descend, Target.place.injEq] at hd
        obtain ⟨rfl, rfl, rfl⟩ := hd
        exact ⟨n, h, rfl⟩
      · simp only [descend] at hd; cases hd
    | block fs s => exact ⟨fun _ _ _ hd => (by simp only [descend] at hd; cases hd), fun hd => (by simp only [descend] at hd; cases hd)⟩
  | cons k p ih =>
    intro around x n h ht
    cases x with
    | cell c =>
      rw [Filled] at h
      refine ⟨fun around' c' q hd => ?_, fun hd => ?_⟩
      · simp only [descend, Target.place.injEq] at hd
        obtain ⟨rfl, rfl, rfl⟩ := hd
        exact ⟨n, h, rfl⟩
      · simp only [descend] at hd; cases hd
    | block fs s =>
      rw [Filled] at h
      obtain ⟨m, rfl, hm⟩ := h
      rw [Tidy] at ht
      have hg := filledM_get hm k
      rw [enter_block hm ht.2]
      simp only [descend]
      cases hk : mget fs k with
      | none =>
        rw [hg.2 hk]
        exact ⟨fun _ _ _ hd => (nomatch hd), fun _ => rfl⟩
      | some x =>
        obtain ⟨n', h1, h2⟩ := hg.1 x hk
        rw [h1]
        exact ih h2 (tidyM_get ht.2 _ (mget_some_mem hk)).2

/-- the scopes of a cell -/
def ScopesOk (L : Lang Ex) (P : Blocks → Cell → Node Ex → Prop) : Blocks → List (Scope Ex) → Prop
  | [], scs => scs = []
  | fs :: r, scs => ∃ m path rest, scs = { locals := some m, path := path } :: rest ∧ FilledM P (fs :: r) fs m ∧ TidyM L fs ∧ ScopesOk L P r rest

theorem lexical_lookup {L : Lang Ex} {P : Blocks → Cell → Node Ex → Prop} (e : Ex) (name : String) (p : List String) : ∀ {around : Blocks} {scs : List (Scope Ex)}, ScopesOk L P around scs →
    (∀ around' c q, lexical name p around = .place around' c q → ∃ n n', lookupScopes name scs = some n ∧ P around' c n' ∧ enter e p n = enter e q n') ∧
    (lexical name p around = .absent → lookupScopes name scs = none ∨ ∃ n, lookupScopes name scs = some n ∧ enter e p n = .inr (Info.error {} "not found")) := by
  intro around
  induction around with
  | nil =>
    intro scs h
    rw [ScopesOk] at h
    subst h
    exact ⟨fun _ _ _ h => (nomatch h), fun _ => .inl rfl⟩
  | cons fs r ih =>
    intro scs h
    rw [ScopesOk] at h
    obtain ⟨m, path, rest, rfl, hm, ht, hr⟩ := h
    have hg := filledM_get hm name
    simp only [lexical, lookupScopes, Scope.get, Option.bind_some]
    cases hk : mget fs name with
    | none => rw [hg.2 hk]; exact ih hr
    | some x =>
      obtain ⟨n, h1, h2⟩ := hg.1 x hk
      rw [h1]
      obtain ⟨g1, g2⟩ := enter_descend e p h2 (tidyM_get ht _ (mget_some_mem hk)).2
      refine ⟨fun around' c q hd => ?_, fun hd => .inr ⟨n, rfl, g2 hd⟩⟩
      obtain ⟨n', h3, h4⟩ := g1 around' c q hd
      exact ⟨n, n', rfl, h3, h4⟩

theorem last_scope {L : Lang Ex} {P : Blocks → Cell → Node Ex → Prop} : ∀ {around : Blocks} {scs : List (Scope Ex)}, ScopesOk L P around scs → ∀ top, around.getLast? = some top →
    ∃ m path, scs.getLast? = some { locals := some m, path := path } ∧ FilledM P [top] top m ∧ TidyM L top := by
  intro around
  induction around with
  | nil => intro scs h top ht; cases ht
  | cons fs r ih =>
    intro scs h top ht
    rw [ScopesOk] at h
    obtain ⟨m, path, rest, rfl, hm, htd, hr⟩ := h
    cases r with
    | nil =>
      simp only [List.getLast?_singleton, Option.some.injEq] at ht
      subst ht
      rw [ScopesOk] at hr
      subst hr
      exact ⟨m, path, rfl, hm, htd⟩
    | cons fs' r' =>
      rw [List.getLast?_cons_cons] at ht
      obtain ⟨m', path', h1, h2, h3⟩ := ih hr top ht
      refine ⟨m', path', ?_, h2, h3⟩
      cases rest with
      | nil => cases h1
      | cons a b => rw [List.getLast?_cons_cons]; exact h1

theorem cleaned : ({ localError := true, issue := "not found" } : Info).cleanError = {} := rfl

/-- References of a cell: what they lead to, or a failure. -/
theorem ref_target {X : EvLib} {R : RefLib Ex} (hX : X.ctl = false) (hR : R.ctl = false) {L : Lang Ex} {P : Blocks → Cell → Node Ex → Prop} {around : Blocks} {env : Env Ex}
    (hs : ScopesOk L P around env.scopes) (ho : env.outer = []) (path : List String) :
    (∀ around' c q, target around path = .place around' c q → ∃ n', P around' c n' ∧
      eval X (Ex.ref path) (bindOf R env) false = entered (Ex.ref path) (enter (Ex.ref path) q n')) ∧
    (target around path = .absent → ∃ i : Info, eval X (Ex.ref path) (bindOf R env) false = .fail i ∧ i.cleanError = {}) := by
  cases path with
  | nil => exact ⟨fun _ _ _ h => (nomatch h), fun h => (nomatch h)⟩
  | cons name p =>
    by_cases h0 : name = ""
    · -- absolute
      simp only [target, h0, if_true]
      cases ht : around.getLast? with
      | none => exact ⟨fun _ _ _ h => (nomatch h), fun h => (nomatch h)⟩
      | some top =>
        obtain ⟨m, pa, h1, h2, h3⟩ := last_scope hs top ht
        have hlook : ∀ i ≤ p.length, refLook (bindOf R env) ("" :: p) i = findR false true (Node.new (.map m) "scope") (p.take i) := by
          intro i _
          simp only [refLook, List.head?_cons, if_true, List.take_succ_cons, List.drop_succ_cons, List.drop_zero]
          show findFromRoot R env (p.take i) = _
          unfold findFromRoot
          simp only [h1, hR, Option.getD_some]
        have hev := ref_enter hX (bindOf R env) "" p _ hlook
        cases p with
        | nil => exact ⟨fun _ _ _ h => (by simp only [descend] at h; cases h), fun h => (by simp only [descend] at h; cases h)⟩
        | cons k p =>
          have hF : Filled P [] (.block top "") (.mk (.map m) "" {}) := by rw [Filled]; exact ⟨m, rfl, h2⟩
          have hE : enter (Ex.ref ("" :: k :: p)) (k :: p) (Node.new (.map m) "scope") = enter (Ex.ref ("" :: k :: p)) (k :: p) (.mk (.map m) "" {}) := by
            rw [show Node.new (Val.map m) "scope" = Node.mk (.map m) "scope" {} from rfl, enter_block h2 h3, enter_block h2 h3]
          rw [hE] at hev
          have hg := filledM_get h2 k
          rw [hev]
          rw [enter_block h2 h3]
          simp only [descend]
          cases hk : mget top k with
          | none =>
            rw [hg.2 hk]
            exact ⟨fun _ _ _ h => (nomatch h), fun _ => ⟨_, rfl, rfl⟩⟩
          | some x =>
            obtain ⟨n, h4, h5⟩ := hg.1 x hk
            rw [h4]
            obtain ⟨g1, g2⟩ := enter_descend (Ex.ref ("" :: k :: p)) p h5 (tidyM_get h3 _ (mget_some_mem hk)).2
            refine ⟨fun around' c q hd => ?_, fun hd => ?_⟩
            · obtain ⟨n', k1, k2⟩ := g1 around' c q hd
              exact ⟨n', k1, by simp only [k2]⟩
            · simp only [g2 hd]
              exact ⟨_, rfl, rfl⟩
    · by_cases h1 : name = "_" ∨ name = "__" ∨ name = "___" ∨ name = "__ctx"
      · simp only [target, h0, if_false, h1, if_true]
        exact ⟨fun _ _ _ h => (nomatch h), fun h => (nomatch h)⟩
      · simp only [target, h0, if_false, h1]
        simp only [not_or] at h1
        obtain ⟨n1, n2, n3, n4⟩ := h1
        obtain ⟨g1, g2⟩ := lexical_lookup (Ex.ref (name :: p)) name p hs
        have hfound : ∀ n, lookupScopes name env.scopes = some n → eval X (Ex.ref (name :: p)) (bindOf R env) false = entered (Ex.ref (name :: p)) (enter (Ex.ref (name :: p)) p n) := by
          intro n hn
          refine ref_enter hX (bindOf R env) name p n (fun i _ => ?_)
          have hh : (name :: p).head? ≠ some "" := by simpa using h0
          simp only [refLook, if_neg hh, List.take_succ_cons]
          show findReference R env (name :: p.take i) = _
          unfold findReference
          rw [ho]
          simp only [findRefIn, if_neg n4, hn, SELF, n1, and_false, if_false, hR]
        refine ⟨fun around' c q hd => ?_, fun hd => ?_⟩
        · obtain ⟨n, n', h2, h3, h4⟩ := g1 around' c q hd
          exact ⟨n', h3, by rw [hfound n h2, h4]⟩
        · rcases g2 hd with h2 | ⟨n, h2, h3⟩
          · have hmiss : ∀ q, findReference R env (name :: q) = .missing := by
              intro q
              unfold findReference
              rw [ho]
              simp only [findRefIn, if_neg n4, h2, ROOT, DOCNODE, n2, n3, if_false]
            refine ⟨{ localError := true, issue := "not found" }, ?_, rfl⟩
            have h5 : eval X (Ex.ref (name :: p)) (bindOf R env) false = refFind X.ctl (Ex.ref (name :: p)) (name :: p).length (refLook (bindOf R env) (name :: p)) false := rfl
            have h6 : refLook (bindOf R env) (name :: p) 0 = .missing := by
              have hh : (name :: p).head? ≠ some "" := by simpa using h0
              simp only [refLook, if_neg hh, List.take_succ_cons]
              exact hmiss _
            rw [h5, refFind, if_neg (by simp), List.length_cons, findSteps, h6]
            rfl
          · exact ⟨_, by rw [hfound n h2, h3]; rfl, rfl⟩

end Spiff
