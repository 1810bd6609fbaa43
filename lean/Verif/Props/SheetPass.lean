import Verif.Props.SheetFlow
import Verif.Props.Template
import Verif.Props.Merge
import Verif.Lemmas.Stable
/-
C94, fourth part: passes over the whole sheet.
-/
namespace Spiff
open Spec

/-! ### one cell -/

/-- a cell in a pass: `V` tells the values already known -/
def CellAt (L : Lang Ex) (fns : Fns) (V : Blocks → Cell → Val Ex → Prop) (around : Blocks) (c : Cell) (n : Node Ex) : Prop :=
  CellInv L fns around c n ∧ ∀ v, V around c v → n.val = v ∧ Plain L n

/-- what must be known of the cells of the sheet -/
structure CellOk (L : Lang Ex) (fns : Fns) (K F : Nat) (around : Blocks) (c : Cell) : Prop where
  total : (∃ v, Computes L fns around c v) ∨ Circular L fns around c
  steps : ∀ v, Computes L fns around c v → ComputesIn L fns K around c v
  deep : ∀ v, Computes L fns around c v → depthV v < F

theorem computes_data {L : Lang Ex} {fns : Fns} {around : Blocks} {d : Node Ex} {v : Val Ex} : Computes L fns around (.data d) v ↔ v = d.val := by
  refine ⟨fun ⟨k, h⟩ => ?_, fun h => ⟨0, h⟩⟩
  cases k <;> exact h

theorem computesIn_data {L : Lang Ex} {fns : Fns} {k : Nat} {around : Blocks} {d : Node Ex} {v : Val Ex} : ComputesIn L fns k around (.data d) v ↔ v = d.val := by
  cases k <;> exact Iff.rfl

/-- the values of stubs are in place -/
def Agrees (st : List (Node Ex)) (path : List String) : Cell → Prop
  | .data d => ovN st true path d = d
  | .formula _ _ o => findInStubs false st path = o ∧ ∀ q, o = some q → ovN st true path q = q

theorem stub_absent {L : Lang Ex} {st : List (Node Ex)} (hs : ∀ s ∈ st, Plain L s) {p : List String} (h : findInStubs false st p = none) (q : String) : findInStubs false st (p ++ [q]) = none := by
  rw [findInStubs_eq hs] at h ⊢
  rw [List.findSome?_eq_none_iff] at h ⊢
  intro s hm
  rw [find_append, h s hm]
  rfl

/-- where stubs give nothing, nothing changes -/
theorem ov_absent {L : Lang Ex} {st : List (Node Ex)} (hs : ∀ s ∈ st, Plain L s) (n : Node Ex) : ∀ so p, findInStubs false st p = none → ovN st so p n = n := by
  refine Node.rec
    (motive_1 := fun v => ∀ so p s a, findInStubs false st p = none → ovV st so p s a v = .mk v s a)
    (motive_2 := fun n => ∀ so p, findInStubs false st p = none → ovN st so p n = n)
    (motive_3 := fun l => ∀ u p i, findInStubs false st p = none → ovL st u p i l = l)
    (motive_4 := fun m => ∀ p, findInStubs false st p = none → ovM st p m = m)
    (motive_5 := fun e => ∀ so p, findInStubs false st p = none → ovN st so p e.2 = e.2)
    ?_ ?_ ?_ ?_ ?_ ?_ ?_ ?_ ?_ ?_ ?_ ?_ ?_ ?_ ?_ ?_ n
  · intro so p s a h; simp [ovV, h]
  · intro b so p s a h; simp [ovV, h]
  · intro b so p s a h; simp [ovV, h]
  · intro b so p s a h; simp [ovV, h]
  · intro b so p s a h; simp [ovV, h]
  · intro l ih so p s a h; simp [ovV, h, ih _ _ _ h]
  · intro m ih so p s a h; simp [ovV, ih _ h]
  · intro b so p s a h; simp [ovV]
  · intro b ih so p s a h; simp [ovV]
  · intro b so p s a h; simp [ovV]
  · intro v s a ih so p h; exact ih so p s a h
  · intro u p i h; rfl
  · intro n l ih1 ih2 u p i h; simp only [ovL]; rw [ih1 _ _ (stub_absent hs h _), ih2 _ _ _ h]
  · intro p h; rfl
  · intro e m ih1 ih2 p h
    obtain ⟨k, n⟩ := e
    simp only [ovM]
    rw [ih2 _ h]
    have := ih1 true (p ++ [k]) (stub_absent hs h k)
    rw [this]
  · intro k n ih; exact ih

/-- an environment of a pass -/
structure EnvOk (L : Lang Ex) (st : List (Node Ex)) (P : Blocks → Cell → Node Ex → Prop) (around : Blocks) (env : Env Ex) : Prop where
  stubs : env.stubs = st
  plain : ∀ s ∈ st, Plain L s
  merges : env.nomerge = false
  outer : env.outer = []
  scopes : ScopesOk L P around env.scopes

theorem done_not_left {X : EvLib} {b : Bind} {e e' : Ex} {v : Val Ex} (h : Evals X b e v) (h' : Pending X b e e') : False := by
  obtain ⟨h1, h2⟩ := h
  rw [Pending, h1] at h'
  injection h' with h3 h4
  rw [h3] at h2
  cases h2

theorem left_unique {X : EvLib} {b : Bind} {e e1 e2 : Ex} (h : Pending X b e e1) (h' : Pending X b e e2) : e1 = e2 := by
  rw [Pending] at h h'
  rw [h] at h'
  cases h'
  rfl

section
variable {X : EvLib} {R : RefLib Ex} {base : Lang Ex} {fns : Fns}

theorem flow_final {st : List (Node Ex)} {P : Blocks → Cell → Node Ex → Prop} {around : Blocks} {env : Env Ex} (he : EnvOk (exLang X R base) st P around env) {c : Cell}
    (ha : Agrees st env.stubPath c) {n : Node Ex} (hi : CellInv (exLang X R base) fns around c n) (hp : Plain (exLang X R base) n) {fuel : Nat}
    (hd : depth n < fuel) : flow (exLang X R base) fuel env n true false = .ok n := by
  rw [flow_plain (exLang X R base) (stubs := st) he.plain fuel n env true he.stubs he.merges hp hd]
  congr 1
  cases c with
  | data d =>
    obtain ⟨rfl, -⟩ := hi
    exact ha
  | formula t s o =>
    obtain ⟨-, hi⟩ := hi
    rcases hi with ⟨e, a, rfl, -⟩ | ⟨w, h1, h2, rfl⟩
    · exact hp.elim
    · obtain ⟨ha1, ha2⟩ := ha
      cases o with
      | none => exact ov_absent he.plain _ _ _ ha1
      | some q => exact ha2 q rfl

theorem plain_undefined {L : Lang Ex} {n : Node Ex} (h : Plain L n) : n.ann.undefined = false := by
  rcases plain_ann h with h | h <;> rw [h] <;> rfl

/-- a cell without a pending expression is final -/
theorem inv_final {L : Lang Ex} {around : Blocks} {c : Cell} {n : Node Ex} (h : CellInv L fns around c n) (hn : n.val.isExpr = false) : Plain L n ∧ Computes L fns around c n.val := by
  cases c with
  | data d =>
    obtain ⟨rfl, hp⟩ := h
    exact ⟨hp, computes_data.2 rfl⟩
  | formula t s o =>
    obtain ⟨ho, h⟩ := h
    rcases h with ⟨e, a, rfl, -⟩ | ⟨w, h1, h2, rfl⟩
    · cases hn
    · rw [getD_val]
      exact ⟨getD_plain ho h2 s, h1⟩

/-- One cell in a pass: values stay; what can be computed from known values is computed. -/
theorem cell_step (hX : X.ctl = false) (hR : R.ctl = false) (hf : FnsOk X fns) {K F k : Nat} {around : Blocks} {c : Cell} (hc : CellOk (exLang X R base) fns K F around c) {n : Node Ex}
    (hn : CellAt (exLang X R base) fns (ComputesIn (exLang X R base) fns k) around c n) {st : List (Node Ex)} {env : Env Ex}
    (he : EnvOk (exLang X R base) st (CellAt (exLang X R base) fns (ComputesIn (exLang X R base) fns k)) around env) (hag : Agrees st env.stubPath c) {fuel : Nat} (hfu : F < fuel) :
    ∃ n', flow (exLang X R base) fuel env n true false = .ok n' ∧ n'.ann.undefined = false ∧ CellAt (exLang X R base) fns (ComputesIn (exLang X R base) fns (k + 1)) around c n' ∧
      (n.val.isExpr = false → n' = n) := by
  by_cases hx : n.val.isExpr = false
  · obtain ⟨hp, hv⟩ := inv_final hn.1 hx
    have hdep : depth n < fuel := by
      have := hc.deep _ hv
      obtain ⟨v, s, a⟩ := n
      exact Nat.lt_trans this hfu
    exact ⟨n, flow_final he hag hn.1 hp hdep, plain_undefined hp, ⟨hn.1, fun v h => ⟨computes_unique hv ⟨_, h⟩, hp⟩⟩, fun _ => rfl⟩
  · obtain ⟨f, rfl⟩ : ∃ f, fuel = f + 1 := ⟨fuel - 1, by omega⟩
    cases c with
    | data d =>
      obtain ⟨⟨rfl, hp⟩, -⟩ := hn
      exact absurd (plain_value hp) hx
    | formula t s o =>
      obtain ⟨⟨ho, hi⟩, hlev⟩ := hn
      obtain ⟨hag1, -⟩ := hag
      rcases hi with ⟨e, a, rfl, ha, hm, hw⟩ | ⟨v, h1, h2, rfl⟩
      · have hsc : ScopesOk (exLang X R base) (CellAt (exLang X R base) fns (ComputesIn (exLang X R base) fns k)) around (srcEnv env s).scopes := by
          rw [(srcEnv_same env s).1]
          exact he.scopes
        have hou : (srcEnv env s).outer = [] := by rw [(srcEnv_same env s).2]; exact he.outer
        have hgood := refs_good (X := X) (R := R) (L := exLang X R base) (fns := fns) hX hR (fun _ _ _ h => h.1) hsc hou
        have hgoodk : ∀ j, RefsGood X (bindOf R (srcEnv env s)) (knownIn (exLang X R base) fns j around) (absentAt around) (stuckAt (exLang X R base) fns around) := by
          intro j
          exact ⟨fun p v ⟨a, c, q, u, g1, g2, g3⟩ => hgood.val p v ⟨a, c, q, u, g1, ⟨j, g2⟩, g3⟩, hgood.absent, hgood.stuck⟩
        rcases hc.total with ⟨v, hv⟩ | hcirc
        · obtain ⟨j, hj⟩ := id hv
          cases j with
          | zero => exact hj.elim
          | succ j =>
            obtain ⟨w, rfl, hw1, hw2⟩ := hm j v hj
            obtain ⟨-, h2, -⟩ := step_means hf (hgoodk j) hw2
            rcases h2 with hd | ⟨e', hl, -⟩
            · have hpn := getD_plain ho hw1 s
              have hfd := flow_done (base := base) (by rw [he.stubs]; exact he.plain) he.merges ha hd hw1 f
              rw [he.stubs, hag1] at hfd
              exact ⟨_, hfd, plain_undefined hpn, ⟨⟨ho, .inr ⟨w, hv, hw1, rfl⟩⟩, fun v' h' => ⟨(getD_val o w s).trans (computes_unique hv ⟨_, h'⟩), hpn⟩⟩, fun h => absurd h hx⟩
            · refine ⟨_, flow_left ha hl f, rfl, ⟨⟨ho, .inl ⟨e', waitingAnn, rfl, .inr rfl, ?_, fun h => absurd h (circular_no_value hv)⟩⟩, ?_⟩, fun h => absurd h hx⟩
              · intro i v' hi
                obtain ⟨w', h4, h5, h6⟩ := hm i v' hi
                obtain ⟨-, h2, -⟩ := step_means hf (hgoodk i) h6
                rcases h2 with hd | ⟨e'', hl', hm'⟩
                · exact (done_not_left hd hl).elim
                · cases left_unique hl hl'
                  exact ⟨w', h4, h5, hm'⟩
              · intro v' h'
                obtain ⟨w', h4, h5, h6⟩ := hm k v' h'
                obtain ⟨-, -, h3⟩ := step_means hf (hgoodk k) h6
                have := h3 (fun p w hp => refs_done (L := exLang X R base) hX hR (fun a c n u h hu => h.2 u hu) hsc hou hp)
                exact (done_not_left this hl).elim
        · obtain ⟨e', hl, hw'⟩ := step_waits hf hgood (hw hcirc)
          refine ⟨_, flow_left ha hl f, rfl, ⟨⟨ho, .inl ⟨e', waitingAnn, rfl, .inr rfl, fun i v' hi => absurd hcirc (circular_no_value ⟨_, hi⟩), fun _ => hw'⟩⟩, ?_⟩, fun h => absurd h hx⟩
          exact fun v' h' => absurd hcirc (circular_no_value ⟨_, h'⟩)
      · exact absurd (plain_value (getD_plain ho h2 s)) hx

/-- A cell that does not change any more. -/
def SettledCell (X : EvLib) (L : Lang Ex) (fns : Fns) (around : Blocks) (n : Node Ex) : Prop :=
  ∀ e, n.val = .expr e → n.ann = waitingAnn ∧
    ∀ b, RefsReady X b (known L fns around) (absentAt around) (stuckAt L fns around) → Pending X b e e

/-- One cell in a pass when all values are known. -/
theorem cell_settle (hX : X.ctl = false) (hR : R.ctl = false) (hf : FnsOk X fns) {K F : Nat} {around : Blocks} {c : Cell} (hc : CellOk (exLang X R base) fns K F around c) {n : Node Ex}
    (hn : CellAt (exLang X R base) fns (Computes (exLang X R base) fns) around c n) {st : List (Node Ex)} {env : Env Ex}
    (he : EnvOk (exLang X R base) st (CellAt (exLang X R base) fns (Computes (exLang X R base) fns)) around env) (hag : Agrees st env.stubPath c) {fuel : Nat} (hfu : F < fuel) :
    ∃ n', flow (exLang X R base) fuel env n true false = .ok n' ∧ n'.ann.undefined = false ∧ CellAt (exLang X R base) fns (Computes (exLang X R base) fns) around c n' ∧
      SettledCell X (exLang X R base) fns around n' ∧ (SettledCell X (exLang X R base) fns around n → n' = n) := by
  by_cases hx : n.val.isExpr = false
  · obtain ⟨hp, hv⟩ := inv_final hn.1 hx
    have hdep : depth n < fuel := by
      have := hc.deep _ hv
      obtain ⟨v, s, a⟩ := n
      exact Nat.lt_trans this hfu
    refine ⟨n, flow_final he hag hn.1 hp hdep, plain_undefined hp, hn, ?_, fun _ => rfl⟩
    intro e h
    rw [h] at hx
    cases hx
  · obtain ⟨f, rfl⟩ : ∃ f, fuel = f + 1 := ⟨fuel - 1, by omega⟩
    cases c with
    | data d =>
      obtain ⟨⟨rfl, hp⟩, -⟩ := hn
      exact absurd (plain_value hp) hx
    | formula t s o =>
      obtain ⟨⟨ho, hi⟩, hlev⟩ := hn
      obtain ⟨hag1, -⟩ := hag
      rcases hi with ⟨e, a, rfl, ha, hm, hw⟩ | ⟨v, h1, h2, rfl⟩
      · have hsc : ScopesOk (exLang X R base) (CellAt (exLang X R base) fns (Computes (exLang X R base) fns)) around (srcEnv env s).scopes := by
          rw [(srcEnv_same env s).1]
          exact he.scopes
        have hou : (srcEnv env s).outer = [] := by rw [(srcEnv_same env s).2]; exact he.outer
        have hgood := refs_good (X := X) (R := R) (L := exLang X R base) (fns := fns) hX hR (fun _ _ _ h => h.1) hsc hou
        have hready : RefsReady X (bindOf R (srcEnv env s)) (known (exLang X R base) fns around) (absentAt around) (stuckAt (exLang X R base) fns around) :=
          ⟨hgood, fun p w hp => refs_done (L := exLang X R base) hX hR (fun a c n u h hu => h.2 u hu) hsc hou hp⟩
        rcases hc.total with ⟨v, hv⟩ | hcirc
        · have := (hlev v hv).1
          have := plain_value (n := .mk v s {}) (computes_plain ho hv)
          simp_all
        · obtain ⟨e', hw', hl⟩ := settle_waits hf (hw hcirc)
          have hl1 := (hl _ hready).1
          refine ⟨_, flow_left ha hl1 f, rfl, ⟨⟨ho, .inl ⟨e', waitingAnn, rfl, .inr rfl, fun i v' hi => absurd hcirc (circular_no_value ⟨_, hi⟩), fun _ => hw'⟩⟩,
            fun v' h' => absurd hcirc (circular_no_value h')⟩, ?_, ?_⟩
          · intro e'' h''
            cases h''
            exact ⟨rfl, fun b hb => (hl b hb).2⟩
          · intro hs
            obtain ⟨h1, h2⟩ := hs e rfl
            cases left_unique hl1 (h2 _ hready)
            have : a = waitingAnn := h1
            rw [this]
      · exact absurd (plain_value (getD_plain ho h2 s)) hx

/-- the node of a cell before the first pass -/
def Starts (L : Lang Ex) (st : List (Node Ex)) (D : Nat) (path : List String) (c : Cell) (n : Node Ex) : Prop :=
  match c with
  | .data d => Plain L n ∧ depth n < D ∧ ovN st true path n = d ∧ (deepEq n d = true → n = d)
  | .formula t s _ => n = .mk (.str t) s {}

/-- One cell in the first pass. -/
theorem cell_first {K F D : Nat} {around : Blocks} {c : Cell} (hc : CellOk (exLang X R base) fns K F around c) (ht : Tidy (exLang X R base) (.cell c))
    {st : List (Node Ex)} {P : Blocks → Cell → Node Ex → Prop} {env : Env Ex} (he : EnvOk (exLang X R base) st P around env) {n : Node Ex}
    (hn : Starts (exLang X R base) st D env.stubPath c n) {fuel : Nat} (hfu : D ≤ fuel) (hf0 : 0 < fuel) :
    ∃ n', flow (exLang X R base) fuel env n true false = .ok n' ∧ n'.ann.undefined = false ∧ CellAt (exLang X R base) fns (ComputesIn (exLang X R base) fns 0) around c n' ∧
      (∀ t s o, c = .formula t s o → n.val.isExpr = false ∧ n'.val.isExpr = true) := by
  cases c with
  | data d =>
    obtain ⟨h1, h2, h3, -⟩ := hn
    have hfl := flow_plain (exLang X R base) (stubs := st) he.plain fuel n env true he.stubs he.merges h1 (by omega)
    rw [h3] at hfl
    exact ⟨d, hfl, plain_undefined (L := exLang X R base) ht, ⟨⟨rfl, ht⟩, fun v h => ⟨h.symm, ht⟩⟩, fun _ _ _ h => nomatch h⟩
  | formula t s o =>
    obtain ⟨f, rfl⟩ : ∃ f, fuel = f + 1 := ⟨fuel - 1, by omega⟩
    have hn' : n = .mk (.str t) s {} := hn
    subst hn'
    have hpar : ∃ e, ParsesTo (exLang X R base) t e := by
      rcases hc.total with ⟨v, k, hk⟩ | h
      · cases k with
        | zero => exact hk.elim
        | succ k => obtain ⟨w, -, -, e, h, -⟩ := hk; exact ⟨e, h⟩
      · obtain ⟨t', s', o', e, h1, h2, -⟩ := circular_waits h
        cases h1
        exact ⟨e, h2⟩
    obtain ⟨e, he'⟩ := hpar
    obtain ⟨sub, h1, h2⟩ := id he'
    refine ⟨.mk (.expr e) s {}, flow_marker_text (exLang X R base) f env t s {} e sub ⟨rfl, rfl, rfl⟩ h1 (h2 _ _) true false, rfl,
      ⟨⟨ht, .inl ⟨e, {}, rfl, .inl rfl, ?_, ?_⟩⟩, fun v h => h.elim⟩, fun _ _ _ _ => ⟨rfl, rfl⟩⟩
    · rintro k v ⟨w, h5, h6, e', h3, h4⟩
      cases parsed_unique he' h3
      exact ⟨w, h5, h6, h4⟩
    · intro h
      obtain ⟨t', s', o', e', h3, h4, h5⟩ := circular_waits h
      cases h3
      cases parsed_unique he' h4
      exact h5

/-! ### maps -/

/-- one pass over a map without merge key, with stubs, if the processing of its fields is known -/
theorem flow_fields_stubs {α : Type} (L : Lang Ex) (fuel : Nat) (env : Env Ex) (items : List (String × α)) (s : String) (so : Bool) (f g : α → Node Ex)
    (hst : ∀ s ∈ env.stubs, Plain L s) (hm : MapOK items) (hk : ∀ e ∈ items, e.1 ≠ "<<" ∧ e.1 ≠ MERGEKEY)
    (hg : ∀ e ∈ items, flow L fuel ((env.withScope (items.map (fun e => (e.1, f e.2)))).withPath e.1) (f e.2) true (L.requireTemplate e.1) = .ok (g e.2) ∧
      (g e.2).ann.undefined = false) :
    flow L (fuel + 1) env (.mk (.map (items.map (fun e => (e.1, f e.2)))) s bare) so false = .ok (.mk (.map (items.map (fun e => (e.1, g e.2)))) s bare) := by
  have hkn : ∀ k, (∀ e ∈ items, e.1 ≠ k) → mget (items.map (fun e => (e.1, f e.2))) k = none := by
    intro k h
    rw [mget_none_iff]
    intro hmem
    simp only [mkeys, List.map_map, List.mem_map] at hmem
    obtain ⟨e, he, rfl⟩ := hmem
    exact h e he rfl
  have h1 := hkn "<<" (fun e he => (hk e he).1)
  have h2 := hkn MERGEKEY (fun e he => (hk e he).2)
  have hinj : ∀ m, injectStub (findInStubs false env.stubs env.stubPath) {} m = m := by
    intro m
    unfold injectStub
    cases hf : findInStubs false env.stubs env.stubPath with
    | none => rfl
    | some o =>
      have ho := findInStubs_plain hst hf
      obtain ⟨ov, os, oa⟩ := o
      cases ov <;> simp only [Node.val, Bool.not_false, if_true]
      simp only [Plain, PlainV] at ho
      exact injectFields_plain ho.2.2 _
  rw [flow, flowStep]
  simp only [Node.ann, Node.val, bare, Bool.not_false, if_true, Bool.and_false, Bool.false_eq_true, if_false, Val.isExpr]
  unfold flowMap
  simp only [mergeKey, h1, h2, mapVars, Except.bind, inheritedFlags_plain hst, mapNew, mapVars0, Bool.not_false, if_true]
  rw [mapEntries_each L _ _ true rfl rfl MERGEKEY f g items [] ?_ hm (fun _ _ => rfl)]
  · simp only [List.nil_append, Except.map, mapNode, Bool.false_eq_true, if_false, hinj]
    rfl
  · exact fun e he => ⟨(hk e he).2, hg e he⟩

end
end Spiff
