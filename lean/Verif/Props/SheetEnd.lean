import Verif.Props.SheetLoop
/-
C94, last part: the document after processing and the report.
-/
namespace Spiff
open Spec

theorem outcome_of {L : Lang Ex} {fns : Fns} {around : Blocks} {c : Cell} {n : Node Ex} (h : CellAt L fns (Computes L fns) around c n) : CellResult L fns around c n := by
  obtain ⟨h1, h2⟩ := h
  cases c with
  | data d => exact h1.1
  | formula t s o =>
    obtain ⟨-, h1⟩ := h1
    refine ⟨fun v hv => ?_, fun hc => ?_⟩
    · rcases h1 with ⟨e, a, rfl, -⟩ | ⟨v', h3, -, rfl⟩
      · exact absurd (plain_value (h2 v hv).2) (by simp [Node.val, Val.isExpr])
      · cases o with
        | none => rw [computes_unique hv h3]; rfl
        | some q => rfl
    · rcases h1 with ⟨e, a, rfl, -⟩ | ⟨v', h3, -, rfl⟩
      · exact ⟨e, rfl⟩
      · exact absurd hc (circular_no_value h3)

theorem report_cell {L : Lang Ex} {fns : Fns} {K F : Nat} {around : Blocks} {c : Cell} {n : Node Ex} (hc : CellOk L fns K F around c) (h : CellAt L fns (Computes L fns) around c n) (ctx p : List String) :
    (∃ u ∈ findUnresolved L ctx n, u.context = p) ↔ p = ctx ∧ Circular L fns around c := by
  by_cases hx : n.val.isExpr = false
  · obtain ⟨h1, h2⟩ := inv_final h.1 hx
    rw [plain_resolved n h1 ctx]
    exact ⟨fun ⟨u, hu, _⟩ => (nomatch hu), fun ⟨_, hcirc⟩ => absurd hcirc (circular_no_value h2)⟩
  · have hcirc : Circular L fns around c := by
      rcases hc.total with ⟨v, hv⟩ | hcirc
      · exact absurd (plain_value (h.2 v hv).2) hx
      · exact hcirc
    obtain ⟨v, s, a⟩ := n
    cases v with
    | expr e =>
      have hu : ∀ u, u ∈ findUnresolved L ctx (.mk (.expr e) s a) ↔ u = ⟨.mk (.expr e) s a, ctx⟩ := by
        intro u
        simp only [findUnresolved, findUnresolvedV, Bool.not_true, Bool.and_false, Bool.false_eq_true, if_false]
        rw [(groupUnres_perm _).mem_iff]
        simp
      constructor
      · rintro ⟨u, hu', rfl⟩
        rw [hu] at hu'
        subst hu'
        exact ⟨rfl, hcirc⟩
      · rintro ⟨rfl, -⟩
        exact ⟨_, (hu _).2 rfl, rfl⟩
    | _ => exact absurd rfl hx

/-- the report names exactly the circular cells -/
theorem report_sheet {L : Lang Ex} {fns : Fns} {K F : Nat} : ∀ (x : Sheet) {around : Blocks} {n : Node Ex}, Tidy L x → AllCells (CellOk L fns K F) around x →
    Filled (CellAt L fns (Computes L fns)) around x n → ∀ ctx p,
    (∃ u ∈ findUnresolved L ctx n, u.context = p) ↔ ∃ q around' c, p = ctx ++ q ∧ descend q around x = .place around' c [] ∧ Circular L fns around' c := by
  intro x
  refine Sheet.rec (motive_1 := fun x => ∀ {around : Blocks} {n : Node Ex}, Tidy L x → AllCells (CellOk L fns K F) around x →
    Filled (CellAt L fns (Computes L fns)) around x n → ∀ ctx p,
    (∃ u ∈ findUnresolved L ctx n, u.context = p) ↔ ∃ q around' c, p = ctx ++ q ∧ descend q around x = .place around' c [] ∧ Circular L fns around' c)
    (motive_2 := fun fs => ∀ {around : Blocks} {m : List (String × Node Ex)}, TidyM L fs → AllCellsM (CellOk L fns K F) around fs →
    FilledM (CellAt L fns (Computes L fns)) around fs m → ∀ ctx p,
    (∃ u ∈ findUnresolvedM L ctx m, u.context = p) ↔ ∃ e ∈ fs, ∃ q around' c, p = ctx ++ e.1 :: q ∧ descend q around e.2 = .place around' c [] ∧ Circular L fns around' c)
    (motive_3 := fun e => ∀ {around : Blocks} {n : Node Ex}, Tidy L e.2 → AllCells (CellOk L fns K F) around e.2 →
    Filled (CellAt L fns (Computes L fns)) around e.2 n → ∀ ctx p,
    (∃ u ∈ findUnresolved L ctx n, u.context = p) ↔ ∃ q around' c, p = ctx ++ q ∧ descend q around e.2 = .place around' c [] ∧ Circular L fns around' c) ?_ ?_ ?_ ?_ ?_ x
  · intro c around n _ hc h ctx p
    rw [report_cell hc h]
    constructor
    · rintro ⟨rfl, hcirc⟩
      refine ⟨[], around, c, by simp, ?_, hcirc⟩
      rw [descend]
    · rintro ⟨q, a, c', rfl, h1, h2⟩
      rw [descend] at h1
      injection h1 with g1 g2 g3
      subst g1 g2 g3
      exact ⟨by simp, h2⟩
  · intro fs s ih around n ht hc h ctx p
    rw [Filled] at h
    rw [Tidy] at ht
    rw [AllCells] at hc
    obtain ⟨m, rfl, hm⟩ := h
    have hu : ∀ u, u ∈ findUnresolved L ctx (.mk (.map m) s {}) ↔ u ∈ findUnresolvedM L ctx m := by
      intro u
      simp only [findUnresolved, findUnresolvedV, Bool.false_and, Bool.false_eq_true, if_false]
      rw [(groupUnres_perm _).mem_iff]
    simp only [hu]
    rw [ih ht.2 hc hm ctx p]
    constructor
    · rintro ⟨⟨k, x⟩, he, q, a, c, rfl, h1, h2⟩
      refine ⟨k :: q, a, c, rfl, ?_, h2⟩
      rw [descend, mget_of_mem ht.1 he]
      exact h1
    · rintro ⟨q, a, c, rfl, h1, h2⟩
      cases q with
      | nil => rw [descend] at h1; cases h1
      | cons k q =>
        rw [descend] at h1
        cases hk : mget fs k with
        | none => rw [hk] at h1; cases h1
        | some x =>
          rw [hk] at h1
          exact ⟨(k, x), mget_some_mem hk, q, a, c, rfl, h1, h2⟩
  · intro around m _ _ h ctx p
    rw [FilledM] at h
    subst h
    exact ⟨fun ⟨u, hu, _⟩ => (nomatch hu), fun ⟨e, he, _⟩ => (nomatch he)⟩
  · intro e r ih1 ih2 around m ht hc h ctx p
    obtain ⟨k, x⟩ := e
    rw [FilledM] at h
    rw [TidyM] at ht
    rw [AllCellsM] at hc
    obtain ⟨n, m', rfl, h1, h2⟩ := h
    have g1 := ih1 ht.2.1 hc.1 h1 (ctx ++ [k]) p
    have g2 := ih2 ht.2.2 hc.2 h2 ctx p
    simp only [findUnresolvedM, List.mem_append]
    constructor
    · rintro ⟨u, hu | hu, hp⟩
      · obtain ⟨q, a, c, h3, h4⟩ := g1.1 ⟨u, hu, hp⟩
        exact ⟨(k, x), by simp, q, a, c, by simp [h3], h4⟩
      · obtain ⟨e, he, h4⟩ := g2.1 ⟨u, hu, hp⟩
        exact ⟨e, by simp [he], h4⟩
    · rintro ⟨e, he, q, a, c, h3, h4⟩
      rcases List.mem_cons.1 he with rfl | he
      · obtain ⟨u, hu, hp⟩ := g1.2 ⟨q, a, c, by simp [h3], h4⟩
        exact ⟨u, .inl hu, hp⟩
      · obtain ⟨u, hu, hp⟩ := g2.2 ⟨e, he, q, a, c, h3, h4⟩
        exact ⟨u, .inr hu, hp⟩
  · intro k x ih
    exact ih

section
variable {X : EvLib} {R : RefLib Ex} {base : Lang Ex} {fns : Fns}

/-- the processing of a sheet from given start nodes -/
theorem sheet_run (hX : X.ctl = false) (hR : R.ctl = false) (hf : FnsOk X fns) (fs : List (String × Sheet)) (s : String) (ht : Tidy (exLang X R base) (.block fs s))
    (hc : AllCells (fun around c => (∃ v, Computes (exLang X R base) fns around c v) ∨ Circular (exLang X R base) fns around c) [] (.block fs s)) (D : Nat) :
    ∃ N, ∀ fuel ≥ N, ∀ passes ≥ N, ∀ (env : Env Ex) (so : Bool) (n0 : Node Ex) (st : List (Node Ex)), RootOk (exLang X R base) st (.block fs s) env →
      FilledAt (Starts (exLang X R base) st D) env.stubPath (.block fs s) n0 →
      ∃ r report, flowDoc (exLang X R base) fuel passes env n0 so = .ok (r, report) ∧
        Filled (CellResult (exLang X R base) fns) [] (.block fs s) r ∧
        ∀ p, (∃ u ∈ report, u.context = p) ↔ ∃ around c, descend p [] (.block fs s) = .place around c [] ∧ Circular (exLang X R base) fns around c := by
  have hc' : AllCells (fun around c => ∃ M, CellOk (exLang X R base) fns M M around c) [] (.block fs s) := by
    refine cells_mono (fun a c h => ?_) _ hc
    by_cases hv : ∃ v, Computes (exLang X R base) fns a c v
    · obtain ⟨v, k, hk⟩ := hv
      refine ⟨max k (depthV v + 1), ⟨h, fun v' hv' => ?_, fun v' hv' => ?_⟩⟩
      · cases computes_unique ⟨k, hk⟩ hv'
        exact computesIn_le (by omega) hk
      · cases computes_unique ⟨k, hk⟩ hv'
        omega
    · exact ⟨0, ⟨h, fun v' hv' => absurd ⟨v', hv'⟩ hv, fun v' hv' => absurd ⟨v', hv'⟩ hv⟩⟩
  obtain ⟨M, hM⟩ := cells_bound (B := fun a c m => CellOk (exLang X R base) fns m m a c)
    (fun a c m m' hm h => ⟨h.total, fun v hv => computesIn_le hm (h.steps v hv), fun v hv => Nat.lt_of_lt_of_le (h.deep v hv) hm⟩) _ hc'
  have hM := hM M (Nat.le_refl _)
  refine ⟨M + D + (Sheet.block fs s).height + 3, fun fuel hfu passes hp env so n0 st hro hn0 => ?_⟩
  obtain ⟨r, g1, g2⟩ := loop_source hX hR hf hM ht hro (D := D) (fuel := fuel) (by omega) (by omega) so hn0 (passes := passes) (by omega)
  refine ⟨r, findUnresolved (exLang X R base) [] r, ?_, filled_mono (C := fun _ _ => True) (fun _ _ _ _ h => outcome_of h) _ (cells_mono (fun _ _ _ => trivial) _ hM) g2, ?_⟩
  · rw [flowDoc, g1]
    rfl
  · intro p
    rw [report_sheet _ ht hM g2 [] p]
    constructor
    · rintro ⟨q, a, c, rfl, h⟩
      exact ⟨a, c, h⟩
    · rintro ⟨a, c, h⟩
      exact ⟨p, a, c, rfl, h⟩

/-! ### stubs -/

theorem find_fits {L : Lang Ex} (p : List String) : ∀ {s : Node Ex}, Plain L s → Fits p s → find false s p = nodeAt p s ∧ ∀ o, nodeAt p s = some o → isScalar o.val = true := by
  induction p with
  | nil =>
    intro s _ hf
    refine ⟨rfl, fun o h => ?_⟩
    cases h
    exact hf
  | cons k p ih =>
    intro s hs hf
    obtain ⟨v, src, a⟩ := s
    cases v with
    | map m =>
      rw [Plain, PlainV] at hs
      have hst := stepMap_plain hs.2.2 false k
      simp only [Fits, Node.val] at hf
      cases hm : mget m k with
      | none => exact ⟨by simp [find, findR, nextStep, Node.val, hst, hm, Look.toOption, nodeAt], by simp [nodeAt, Node.val, hm]⟩
      | some n =>
        have hn : Plain L n := ((PlainM_iff.1 hs.2.2) _ (mget_some_mem hm)).2
        obtain ⟨h1, h2⟩ := ih hn (hf n hm)
        refine ⟨?_, ?_⟩
        · rw [nodeAt]
          simp only [Node.val, hm, Option.bind_some]
          rw [← h1]
          simp [find, findR, nextStep, Node.val, hst, hm]
        · intro o ho
          rw [nodeAt] at ho
          simp only [Node.val, hm, Option.bind_some] at ho
          exact h2 o ho
    | list l => exact hf.elim
    | _ => exact ⟨rfl, fun o h => by simp [nodeAt, Node.val] at h⟩

theorem stub_fits {L : Lang Ex} {st : List (Node Ex)} (hs : ∀ s ∈ st, Plain L s) {p : List String} (hf : ∀ s ∈ st, Fits p s) :
    findInStubs false st p = st.findSome? (nodeAt p) ∧ ∀ o, st.findSome? (nodeAt p) = some o → Plain L o ∧ isScalar o.val = true := by
  have h1 : findInStubs false st p = st.findSome? (nodeAt p) := by
    rw [findInStubs_eq hs]
    induction st with
    | nil => rfl
    | cons s r ih =>
      rw [List.findSome?_cons, List.findSome?_cons, (find_fits p (hs s (by simp)) (hf s (by simp))).1, ih (fun x hx => hs x (by simp [hx])) (fun x hx => hf x (by simp [hx]))]
  refine ⟨h1, fun o ho => ⟨findInStubs_plain hs (h1.trans ho), ?_⟩⟩
  obtain ⟨s, hm, h⟩ := List.exists_of_findSome?_eq_some ho
  exact (find_fits p (hs s hm) (hf s hm)).2 o h

theorem ov_scalar {L : Lang Ex} {st : List (Node Ex)} {p : List String} {n : Node Ex} (hp : Plain L n) (h : isScalar n.val = true) : ovN st true p n = (findInStubs false st p).getD n := by
  obtain ⟨v, s, a⟩ := n
  cases v with
  | map m => cases h
  | list l => cases h
  | expr e => rw [Plain, PlainV] at hp; exact hp.elim
  | templ e => rw [Plain, PlainV] at hp; exact hp.elim
  | lambda e => rw [Plain, PlainV] at hp; exact hp.elim
  | _ => simp [ovN, ovV]

theorem mergedM_keys (st : List (Node Ex)) (path : List String) (fs : List (String × Sheet)) : mkeys (mergedM st path fs) = mkeys fs := by
  induction fs with
  | nil => rfl
  | cons e r ih =>
    obtain ⟨k, x⟩ := e
    simp only [mergedM, mkeys, List.map_cons] at *
    rw [ih]

/-- the cell of a document with the values of stubs -/
theorem cell_merged {L : Lang Ex} {st : List (Node Ex)} (hs : ∀ s ∈ st, Plain L s) {path : List String} {c : Cell} (ht : Tidy L (.cell c)) (hf : FitsAll st path (.cell c)) :
    ∃ c', (Sheet.cell c).merged st path = .cell c' ∧ Tidy L (.cell c') ∧ Agrees st path c' ∧ ∃ D, ∀ D' ≥ D, Starts L st D' path c' (Sheet.cell c).source := by
  cases c with
  | data n =>
    rw [FitsAll] at hf
    obtain ⟨hf1, hf2⟩ := hf
    obtain ⟨h1, h2⟩ := stub_fits hs hf1
    have hpn : Plain L n := ht
    have hov : ovN st true path n = (st.findSome? (nodeAt path)).getD n := by
      cases ho : st.findSome? (nodeAt path) with
      | none => exact ov_absent hs _ _ _ (h1.trans ho)
      | some o =>
        obtain ⟨s, hm, h⟩ := List.exists_of_findSome?_eq_some ho
        rw [ov_scalar hpn (hf2 ⟨s, hm, by rw [h]; rfl⟩), h1, ho]
    refine ⟨_, rfl, ?_, ?_, depth n + 1, fun D' hD => ⟨hpn, hD, hov, fun hd => ?_⟩⟩
    · show Plain L _
      rw [← hov]
      exact ovN_plain hs _ _ _ hpn
    · show ovN st true path _ = _
      cases ho : st.findSome? (nodeAt path) with
      | none => exact ov_absent hs _ _ _ (h1.trans ho)
      | some o => exact (ov_scalar (h2 o ho).1 (h2 o ho).2).trans (by rw [h1, ho]; rfl)
    · rw [← hov] at hd ⊢
      exact (deepEq_ov hs n _ _ hpn hd).symm
  | formula t s o =>
    rw [FitsAll] at hf
    obtain ⟨h1, h2⟩ := stub_fits hs hf.1
    refine ⟨_, rfl, fun o ho => (h2 o ho).1, ⟨h1, fun q hq => ?_⟩, 0, fun D' _ => rfl⟩
    exact (ov_scalar (h2 q hq).1 (h2 q hq).2).trans (by rw [h1, hq]; rfl)

theorem sheet_merges {L : Lang Ex} {st : List (Node Ex)} (hs : ∀ s ∈ st, Plain L s) : ∀ (x : Sheet) {path : List String}, Tidy L x → FitsAll st path x →
    Tidy L (x.merged st path) ∧ AllAt (Agrees st) path (x.merged st path) ∧ ∃ D, ∀ D' ≥ D, FilledAt (Starts L st D') path (x.merged st path) x.source := by
  intro x
  refine Sheet.rec (motive_1 := fun x => ∀ {path : List String}, Tidy L x → FitsAll st path x →
    Tidy L (x.merged st path) ∧ AllAt (Agrees st) path (x.merged st path) ∧ ∃ D, ∀ D' ≥ D, FilledAt (Starts L st D') path (x.merged st path) x.source)
    (motive_2 := fun fs => ∀ {path : List String}, TidyM L fs → FitsAllM st path fs →
    TidyM L (mergedM st path fs) ∧ AllAtM (Agrees st) path (mergedM st path fs) ∧ ∃ D, ∀ D' ≥ D, FilledAtM (Starts L st D') path (mergedM st path fs) (sourceM fs))
    (motive_3 := fun e => ∀ {path : List String}, Tidy L e.2 → FitsAll st path e.2 →
    Tidy L (e.2.merged st path) ∧ AllAt (Agrees st) path (e.2.merged st path) ∧ ∃ D, ∀ D' ≥ D, FilledAt (Starts L st D') path (e.2.merged st path) e.2.source) ?_ ?_ ?_ ?_ ?_ x
  · intro c path ht hf
    obtain ⟨c', h1, h2, h3, D, h4⟩ := cell_merged hs ht hf
    rw [h1]
    exact ⟨h2, h3, D, fun D' hD => h4 D' hD⟩
  · intro fs s ih path ht hf
    rw [Tidy] at ht
    rw [FitsAll] at hf
    obtain ⟨h1, h2, D, h3⟩ := ih ht.2 hf
    refine ⟨?_, h2, D, fun D' hD => ?_⟩
    · rw [Sheet.merged, Tidy, MapOK, mergedM_keys]
      exact ⟨ht.1, h1⟩
    · rw [Sheet.merged, FilledAt]
      exact ⟨_, rfl, h3 D' hD⟩
  · intro path _ _
    exact ⟨trivial, trivial, 0, fun _ _ => rfl⟩
  · intro e r ih1 ih2 path ht hf
    obtain ⟨k, x⟩ := e
    rw [TidyM] at ht
    rw [FitsAllM] at hf
    obtain ⟨h1, h2, D, h3⟩ := ih1 ht.2.1 hf.1
    obtain ⟨g1, g2, D2, g3⟩ := ih2 ht.2.2 hf.2
    refine ⟨⟨ht.1, h1, g1⟩, ⟨h2, g2⟩, max D D2, fun D' hD => ?_⟩
    rw [mergedM, FilledAtM]
    exact ⟨_, _, rfl, h3 D' (by omega), g3 D' (by omega)⟩
  · intro k x ih
    exact ih

/-- **C95**: a document merged with stubs is processed like the document with the values of the stubs in place, where an expression with a value from a stub
is replaced by it as soon as it can be evaluated. -/
theorem sheet_merged (hX : X.ctl = false) (hR : R.ctl = false) (hf : FnsOk X fns) (stubs : List (Node Ex)) (hs : ∀ s ∈ stubs, Plain (exLang X R base) s)
    (fs : List (String × Sheet)) (s : String) (ht : Tidy (exLang X R base) (.block fs s)) (hfit : FitsAll stubs [] (.block fs s))
    (hc : AllCells (fun around c => (∃ v, Computes (exLang X R base) fns around c v) ∨ Circular (exLang X R base) fns around c) [] ((Sheet.block fs s).merged stubs [])) :
    ∃ N, ∀ fuel ≥ N, ∀ passes ≥ N, ∀ (env : Env Ex) (so : Bool), env.stubs = stubs → env.stubPath = [] → env.nomerge = false → env.outer = [] → env.scopes = [] →
      ∃ r report, flowDoc (exLang X R base) fuel passes env (Sheet.block fs s).source so = .ok (r, report) ∧
        Filled (CellResult (exLang X R base) fns) [] ((Sheet.block fs s).merged stubs []) r ∧
        ∀ p, (∃ u ∈ report, u.context = p) ↔ ∃ around c, descend p [] ((Sheet.block fs s).merged stubs []) = .place around c [] ∧ Circular (exLang X R base) fns around c := by
  obtain ⟨h1, h2, D, h3⟩ := sheet_merges hs _ ht hfit
  rw [Sheet.merged] at h1 h2 h3 hc
  obtain ⟨N, h⟩ := sheet_run hX hR hf (mergedM stubs [] fs) s h1 hc D
  refine ⟨N, fun fuel hfu passes hp env so e1 e2 e3 e4 e5 => ?_⟩
  exact h fuel hfu passes hp env so _ stubs ⟨e1, hs, e3, e4, e5, by rw [e2]; exact h2⟩ (by rw [e2]; exact h3 D (Nat.le_refl _))

/-- no cell has a value from a stub -/
def Unstubbed : Blocks → Cell → Prop := fun _ c => ∀ t s o, c ≠ .formula t s (some o)

theorem sheet_starts {L : Lang Ex} : ∀ (x : Sheet) {around : Blocks}, AllCells Unstubbed around x → Tidy L x →
    ∃ D, ∀ path, AllAt (Agrees []) path x ∧ ∀ D' ≥ D, FilledAt (Starts L [] D') path x x.source := by
  intro x
  refine Sheet.rec (motive_1 := fun x => ∀ {around : Blocks}, AllCells Unstubbed around x → Tidy L x →
    ∃ D, ∀ path, AllAt (Agrees []) path x ∧ ∀ D' ≥ D, FilledAt (Starts L [] D') path x x.source)
    (motive_2 := fun fs => ∀ {around : Blocks}, AllCellsM Unstubbed around fs → TidyM L fs →
    ∃ D, ∀ path, AllAtM (Agrees []) path fs ∧ ∀ D' ≥ D, FilledAtM (Starts L [] D') path fs (sourceM fs))
    (motive_3 := fun e => ∀ {around : Blocks}, AllCells Unstubbed around e.2 → Tidy L e.2 →
    ∃ D, ∀ path, AllAt (Agrees []) path e.2 ∧ ∀ D' ≥ D, FilledAt (Starts L [] D') path e.2 e.2.source) ?_ ?_ ?_ ?_ ?_ x
  · intro c around hu ht
    cases c with
    | data n => exact ⟨depth n + 1, fun path => ⟨ovN_nil _ _ _, fun D' hD => ⟨ht, hD, ovN_nil _ _ _, fun _ => rfl⟩⟩⟩
    | formula t s o =>
      cases o with
      | none => exact ⟨0, fun path => ⟨⟨rfl, fun _ h => nomatch h⟩, fun D' hD => rfl⟩⟩
      | some o => exact absurd rfl (hu t s o)
  · intro fs s ih around hu ht
    rw [Tidy] at ht
    obtain ⟨D, h⟩ := ih hu ht.2
    refine ⟨D, fun path => ⟨(h path).1, fun D' hD => ?_⟩⟩
    rw [FilledAt]
    exact ⟨_, rfl, (h path).2 D' hD⟩
  · intro around _ _
    exact ⟨0, fun _ => ⟨trivial, fun _ _ => rfl⟩⟩
  · intro e r ih1 ih2 around hu ht
    obtain ⟨k, x⟩ := e
    rw [TidyM] at ht
    rw [AllCellsM] at hu
    obtain ⟨D, h⟩ := ih1 hu.1 ht.2.1
    obtain ⟨D2, g⟩ := ih2 hu.2 ht.2.2
    refine ⟨max D D2, fun path => ⟨⟨(h _).1, (g _).1⟩, fun D' hD => ?_⟩⟩
    rw [FilledAtM]
    exact ⟨_, _, rfl, (h _).2 D' (by omega), (g _).2 D' (by omega)⟩
  · intro k x ih
    exact ih

/-- **C94**: if every cell of a document either has a value or is circular, then processing ends; in the result all formulas with a value are replaced by it, data is unchanged,
and the report names exactly the circular formulas. -/
theorem sheet_processed (hX : X.ctl = false) (hR : R.ctl = false) (hf : FnsOk X fns) (fs : List (String × Sheet)) (s : String) (ht : Tidy (exLang X R base) (.block fs s))
    (hu : AllCells (fun _ c => ∀ t s o, c ≠ .formula t s (some o)) [] (.block fs s))
    (hc : AllCells (fun around c => (∃ v, Computes (exLang X R base) fns around c v) ∨ Circular (exLang X R base) fns around c) [] (.block fs s)) :
    ∃ N, ∀ fuel ≥ N, ∀ passes ≥ N, ∀ (env : Env Ex) (so : Bool), env.stubs = [] → env.nomerge = false → env.outer = [] → env.scopes = [] →
      ∃ r report, flowDoc (exLang X R base) fuel passes env (Sheet.block fs s).source so = .ok (r, report) ∧
        Filled (CellResult (exLang X R base) fns) [] (.block fs s) r ∧
        ∀ p, (∃ u ∈ report, u.context = p) ↔ ∃ around c, descend p [] (.block fs s) = .place around c [] ∧ Circular (exLang X R base) fns around c := by
  obtain ⟨D, h0⟩ := sheet_starts _ hu ht
  obtain ⟨N, h⟩ := sheet_run hX hR hf fs s ht hc D
  refine ⟨N, fun fuel hfu passes hp env so e1 e2 e3 e4 => ?_⟩
  exact h fuel hfu passes hp env so _ [] ⟨e1, (fun _ h => nomatch h), e2, e3, e4, (h0 _).1⟩ ((h0 _).2 D (Nat.le_refl _))

end
end Spiff
