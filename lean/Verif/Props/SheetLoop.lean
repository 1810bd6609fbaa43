import Verif.Props.SheetPass
import Verif.Props.Fixpoint
import Verif.Props.Unresolved
/-
C94, fifth part: the loop.
-/
namespace Spiff
open Spec

mutual
/-- two states of a sheet, cell by cell -/
def Paired (Q : Blocks → Cell → Node Ex → Node Ex → Prop) (around : Blocks) : Sheet → Node Ex → Node Ex → Prop
  | .cell c, n, n' => Q around c n n'
  | .block fs s, n, n' => ∃ items : List (String × (Node Ex × Node Ex)), n = .mk (.map (items.map (fun e => (e.1, e.2.1)))) s {} ∧ n' = .mk (.map (items.map (fun e => (e.1, e.2.2)))) s {} ∧
      PairedM Q (fs :: around) fs items
termination_by structural x => x
def PairedM (Q : Blocks → Cell → Node Ex → Node Ex → Prop) (around : Blocks) : List (String × Sheet) → List (String × (Node Ex × Node Ex)) → Prop
  | [], items => items = []
  | (k, x) :: r, items => ∃ n n' items', items = (k, (n, n')) :: items' ∧ Paired Q around x n n' ∧ PairedM Q around r items'
termination_by structural x => x
end

mutual
/-- nesting depth -/
def Spec.Sheet.height : Sheet → Nat
  | .cell _ => 0
  | .block fs _ => heightM fs + 1
termination_by structural x => x
def heightM : List (String × Sheet) → Nat
  | [] => 0
  | (_, x) :: r => max x.height (heightM r)
termination_by structural x => x
end

theorem pairedM_keys {Q : Blocks → Cell → Node Ex → Node Ex → Prop} {around : Blocks} {fs : List (String × Sheet)} : ∀ {items : List (String × (Node Ex × Node Ex))}, PairedM Q around fs items →
    mkeys items = mkeys fs := by
  induction fs with
  | nil => intro m h; rw [PairedM] at h; subst h; rfl
  | cons e r ih =>
    intro m h
    obtain ⟨k, x⟩ := e
    rw [PairedM] at h
    obtain ⟨n, n', items', rfl, -, h2⟩ := h
    simp only [mkeys, List.map_cons] at ih ⊢
    rw [ih h2]

theorem paired_all {Q Q' : Blocks → Cell → Node Ex → Node Ex → Prop} {C : Blocks → Cell → Prop} (hq : ∀ a c n n', C a c → Q a c n n' → Q' a c n n') :
    ∀ (x : Sheet) {around : Blocks} {n n' : Node Ex}, AllCells C around x → Paired Q around x n n' → Paired Q' around x n n' := by
  intro x
  refine Sheet.rec (motive_1 := fun x => ∀ {around : Blocks} {n n' : Node Ex}, AllCells C around x → Paired Q around x n n' → Paired Q' around x n n')
    (motive_2 := fun fs => ∀ {around : Blocks} {items : List (String × (Node Ex × Node Ex))}, AllCellsM C around fs → PairedM Q around fs items → PairedM Q' around fs items)
    (motive_3 := fun e => ∀ {around : Blocks} {n n' : Node Ex}, AllCells C around e.2 → Paired Q around e.2 n n' → Paired Q' around e.2 n n') ?_ ?_ ?_ ?_ ?_ x
  · intro c around n n' hc h
    exact hq _ _ _ _ hc h
  · intro fs s ih around n n' hc h
    rw [Paired] at h ⊢
    rw [AllCells] at hc
    obtain ⟨items, h1, h2, h3⟩ := h
    exact ⟨items, h1, h2, ih hc h3⟩
  · intro around items _ h
    exact h
  · intro e r ih1 ih2 around items hc h
    obtain ⟨k, x⟩ := e
    rw [PairedM] at h ⊢
    rw [AllCellsM] at hc
    obtain ⟨n, n', items', h1, h2, h3⟩ := h
    exact ⟨n, n', items', h1, ih1 hc.1 h2, ih2 hc.2 h3⟩
  · intro k x ih
    exact ih

theorem paired_fst {Q : Blocks → Cell → Node Ex → Node Ex → Prop} {P : Blocks → Cell → Node Ex → Prop} (hq : ∀ a c n n', Q a c n n' → P a c n) :
    ∀ (x : Sheet) {around : Blocks} {n n' : Node Ex}, Paired Q around x n n' → Filled P around x n := by
  intro x
  refine Sheet.rec (motive_1 := fun x => ∀ {around : Blocks} {n n' : Node Ex}, Paired Q around x n n' → Filled P around x n)
    (motive_2 := fun fs => ∀ {around : Blocks} {items : List (String × (Node Ex × Node Ex))}, PairedM Q around fs items → FilledM P around fs (items.map (fun e => (e.1, e.2.1))))
    (motive_3 := fun e => ∀ {around : Blocks} {n n' : Node Ex}, Paired Q around e.2 n n' → Filled P around e.2 n) ?_ ?_ ?_ ?_ ?_ x
  · intro c around n n' h
    exact hq _ _ _ _ h
  · intro fs s ih around n n' h
    rw [Paired] at h
    rw [Filled]
    obtain ⟨items, h1, h2, h3⟩ := h
    exact ⟨_, h1, ih h3⟩
  · intro around items h
    rw [PairedM] at h
    subst h
    rfl
  · intro e r ih1 ih2 around items h
    obtain ⟨k, x⟩ := e
    rw [PairedM] at h
    obtain ⟨n, n', items', rfl, h2, h3⟩ := h
    rw [FilledM]
    exact ⟨n, _, rfl, ih1 h2, ih2 h3⟩
  · intro k x ih
    exact ih

theorem paired_snd {Q : Blocks → Cell → Node Ex → Node Ex → Prop} {P : Blocks → Cell → Node Ex → Prop} (hq : ∀ a c n n', Q a c n n' → P a c n') :
    ∀ (x : Sheet) {around : Blocks} {n n' : Node Ex}, Paired Q around x n n' → Filled P around x n' := by
  intro x
  refine Sheet.rec (motive_1 := fun x => ∀ {around : Blocks} {n n' : Node Ex}, Paired Q around x n n' → Filled P around x n')
    (motive_2 := fun fs => ∀ {around : Blocks} {items : List (String × (Node Ex × Node Ex))}, PairedM Q around fs items → FilledM P around fs (items.map (fun e => (e.1, e.2.2))))
    (motive_3 := fun e => ∀ {around : Blocks} {n n' : Node Ex}, Paired Q around e.2 n n' → Filled P around e.2 n') ?_ ?_ ?_ ?_ ?_ x
  · intro c around n n' h
    exact hq _ _ _ _ h
  · intro fs s ih around n n' h
    rw [Paired] at h
    rw [Filled]
    obtain ⟨items, h1, h2, h3⟩ := h
    exact ⟨_, h2, ih h3⟩
  · intro around items h
    rw [PairedM] at h
    subst h
    rfl
  · intro e r ih1 ih2 around items h
    obtain ⟨k, x⟩ := e
    rw [PairedM] at h
    obtain ⟨n, n', items', rfl, h2, h3⟩ := h
    rw [FilledM]
    exact ⟨n', _, rfl, ih1 h2, ih2 h3⟩
  · intro k x ih
    exact ih

theorem paired_eq {Q : Blocks → Cell → Node Ex → Node Ex → Prop} (hq : ∀ a c n n', Q a c n n' → n' = n) :
    ∀ (x : Sheet) {around : Blocks} {n n' : Node Ex}, Paired Q around x n n' → n' = n := by
  intro x
  refine Sheet.rec (motive_1 := fun x => ∀ {around : Blocks} {n n' : Node Ex}, Paired Q around x n n' → n' = n)
    (motive_2 := fun fs => ∀ {around : Blocks} {items : List (String × (Node Ex × Node Ex))}, PairedM Q around fs items → items.map (fun e => (e.1, e.2.2)) = items.map (fun e => (e.1, e.2.1)))
    (motive_3 := fun e => ∀ {around : Blocks} {n n' : Node Ex}, Paired Q around e.2 n n' → n' = n) ?_ ?_ ?_ ?_ ?_ x
  · intro c around n n' h
    exact hq _ _ _ _ h
  · intro fs s ih around n n' h
    rw [Paired] at h
    obtain ⟨items, rfl, rfl, h3⟩ := h
    rw [ih h3]
  · intro around items h
    rw [PairedM] at h
    subst h
    rfl
  · intro e r ih1 ih2 around items h
    obtain ⟨k, x⟩ := e
    rw [PairedM] at h
    obtain ⟨n, n', items', rfl, h2, h3⟩ := h
    simp only [List.map_cons]
    rw [ih1 h2, ih2 h3]
  · intro k x ih
    exact ih

/-- Equal states are equal cell by cell. -/
theorem paired_deepEq {L : Lang Ex} {Q : Blocks → Cell → Node Ex → Node Ex → Prop} :
    ∀ (x : Sheet) {around : Blocks} {n n' : Node Ex}, Tidy L x → Paired Q around x n n' → deepEq n n' = true → Paired (fun a c n n' => Q a c n n' ∧ deepEq n n' = true) around x n n' := by
  intro x
  refine Sheet.rec (motive_1 := fun x => ∀ {around : Blocks} {n n' : Node Ex}, Tidy L x → Paired Q around x n n' → deepEq n n' = true → Paired (fun a c n n' => Q a c n n' ∧ deepEq n n' = true) around x n n')
    (motive_2 := fun fs => ∀ {around : Blocks} {items : List (String × (Node Ex × Node Ex))} {m : List (String × Node Ex)}, TidyM L fs → PairedM Q around fs items → (∀ e ∈ items, mget m e.1 = some e.2.2) →
      deepEqM (items.map (fun e => (e.1, e.2.1))) m = true → PairedM (fun a c n n' => Q a c n n' ∧ deepEq n n' = true) around fs items)
    (motive_3 := fun e => ∀ {around : Blocks} {n n' : Node Ex}, Tidy L e.2 → Paired Q around e.2 n n' → deepEq n n' = true → Paired (fun a c n n' => Q a c n n' ∧ deepEq n n' = true) around e.2 n n') ?_ ?_ ?_ ?_ ?_ x
  · intro c around n n' _ h hd
    exact ⟨h, hd⟩
  · intro fs s ih around n n' ht h hd
    rw [Paired] at h ⊢
    rw [Tidy] at ht
    obtain ⟨items, rfl, rfl, h3⟩ := h
    have hok : MapOK items := by rw [MapOK, pairedM_keys h3]; exact ht.1
    refine ⟨items, rfl, rfl, ih (m := items.map (fun e => (e.1, e.2.2))) ht.2 h3 ?_ ?_⟩
    · intro e he
      rw [mget_fields Prod.snd, mget_of_mem hok he]
      rfl
    · rw [deepEq] at hd
      simp only [deepEqV, Bool.and_eq_true] at hd
      exact hd.2.2
  · intro around items m _ h _ _
    exact h
  · intro e r ih1 ih2 around items m ht h hm hd
    obtain ⟨k, x⟩ := e
    rw [PairedM] at h ⊢
    rw [TidyM] at ht
    obtain ⟨n, n', items', rfl, h2, h3⟩ := h
    simp only [List.map_cons, deepEqM] at hd
    rw [hm (k, (n, n')) (by simp)] at hd
    simp only [Bool.and_eq_true] at hd
    exact ⟨n, n', items', rfl, ih1 ht.2.1 h2 hd.1, ih2 ht.2.2 h3 (fun e he => hm e (by simp [he])) hd.2⟩
  · intro k x ih
    exact ih

theorem filled_refl {L : Lang Ex} {P : Blocks → Cell → Node Ex → Prop} (hp : ∀ a c n, P a c n → deepEq n n = true) :
    ∀ (x : Sheet) {around : Blocks} {n : Node Ex}, Tidy L x → Filled P around x n → deepEq n n = true := by
  intro x
  refine Sheet.rec (motive_1 := fun x => ∀ {around : Blocks} {n : Node Ex}, Tidy L x → Filled P around x n → deepEq n n = true)
    (motive_2 := fun fs => ∀ {around : Blocks} {m : List (String × Node Ex)}, TidyM L fs → FilledM P around fs m → ∀ e ∈ m, deepEq e.2 e.2 = true)
    (motive_3 := fun e => ∀ {around : Blocks} {n : Node Ex}, Tidy L e.2 → Filled P around e.2 n → deepEq n n = true) ?_ ?_ ?_ ?_ ?_ x
  · intro c around n _ h
    exact hp _ _ _ h
  · intro fs s ih around n ht h
    rw [Filled] at h
    rw [Tidy] at ht
    obtain ⟨m, rfl, h3⟩ := h
    have hm : MapOK m := by rw [MapOK, filledM_keys h3]; exact ht.1
    have := deepEqM_refl m m (fun e he => ⟨mget_of_mem hm he, ih ht.2 h3 e he⟩)
    simp [deepEq, deepEqV, this]
  · intro around m _ h e he
    rw [FilledM] at h
    subst h
    cases he
  · intro e r ih1 ih2 around m ht h e' he
    obtain ⟨k, x⟩ := e
    rw [FilledM] at h
    rw [TidyM] at ht
    obtain ⟨n, m', rfl, h2, h3⟩ := h
    rcases List.mem_cons.1 he with rfl | he
    · exact ih1 ht.2.1 h2
    · exact ih2 ht.2.2 h3 e' he
  · intro k x ih
    exact ih

theorem filled_mono {P P' : Blocks → Cell → Node Ex → Prop} {C : Blocks → Cell → Prop} (hq : ∀ a c n, C a c → P a c n → P' a c n) :
    ∀ (x : Sheet) {around : Blocks} {n : Node Ex}, AllCells C around x → Filled P around x n → Filled P' around x n := by
  intro x
  refine Sheet.rec (motive_1 := fun x => ∀ {around : Blocks} {n : Node Ex}, AllCells C around x → Filled P around x n → Filled P' around x n)
    (motive_2 := fun fs => ∀ {around : Blocks} {m : List (String × Node Ex)}, AllCellsM C around fs → FilledM P around fs m → FilledM P' around fs m)
    (motive_3 := fun e => ∀ {around : Blocks} {n : Node Ex}, AllCells C around e.2 → Filled P around e.2 n → Filled P' around e.2 n) ?_ ?_ ?_ ?_ ?_ x
  · intro c around n hc h
    exact hq _ _ _ hc h
  · intro fs s ih around n hc h
    rw [Filled] at h ⊢
    rw [AllCells] at hc
    obtain ⟨m, h1, h3⟩ := h
    exact ⟨m, h1, ih hc h3⟩
  · intro around m _ h
    exact h
  · intro e r ih1 ih2 around m hc h
    obtain ⟨k, x⟩ := e
    rw [FilledM] at h ⊢
    rw [AllCellsM] at hc
    obtain ⟨n, m', rfl, h2, h3⟩ := h
    exact ⟨n, m', rfl, ih1 hc.1 h2, ih2 hc.2 h3⟩
  · intro k x ih
    exact ih

theorem source_filled : ∀ (x : Sheet) {around : Blocks}, Filled (fun _ c n => n = (Sheet.cell c).source) around x x.source := by
  intro x
  refine Sheet.rec (motive_1 := fun x => ∀ {around : Blocks}, Filled (fun _ c n => n = (Sheet.cell c).source) around x x.source)
    (motive_2 := fun fs => ∀ {around : Blocks}, FilledM (fun _ c n => n = (Sheet.cell c).source) around fs (sourceM fs))
    (motive_3 := fun e => ∀ {around : Blocks}, Filled (fun _ c n => n = (Sheet.cell c).source) around e.2 e.2.source) ?_ ?_ ?_ ?_ ?_ x
  · intro c around
    rw [Filled]
  · intro fs s ih around
    rw [Filled]
    exact ⟨_, rfl, ih⟩
  · intro around
    rfl
  · intro e r ih1 ih2 around
    obtain ⟨k, x⟩ := e
    rw [FilledM]
    exact ⟨_, _, rfl, ih1, ih2⟩
  · intro k x ih
    exact ih

/-- a common bound for all cells -/
theorem cells_bound {B : Blocks → Cell → Nat → Prop} (hb : ∀ a c m m', m ≤ m' → B a c m → B a c m') :
    ∀ (x : Sheet) {around : Blocks}, AllCells (fun a c => ∃ m, B a c m) around x → ∃ M, ∀ M' ≥ M, AllCells (fun a c => B a c M') around x := by
  intro x
  refine Sheet.rec (motive_1 := fun x => ∀ {around : Blocks}, AllCells (fun a c => ∃ m, B a c m) around x → ∃ M, ∀ M' ≥ M, AllCells (fun a c => B a c M') around x)
    (motive_2 := fun fs => ∀ {around : Blocks}, AllCellsM (fun a c => ∃ m, B a c m) around fs → ∃ M, ∀ M' ≥ M, AllCellsM (fun a c => B a c M') around fs)
    (motive_3 := fun e => ∀ {around : Blocks}, AllCells (fun a c => ∃ m, B a c m) around e.2 → ∃ M, ∀ M' ≥ M, AllCells (fun a c => B a c M') around e.2) ?_ ?_ ?_ ?_ ?_ x
  · rintro c around ⟨m, h⟩
    exact ⟨m, fun M' hM => hb _ _ _ _ hM h⟩
  · intro fs s ih around h
    exact ih h
  · intro around _
    exact ⟨0, fun _ _ => trivial⟩
  · intro e r ih1 ih2 around h
    obtain ⟨k, x⟩ := e
    rw [AllCellsM] at h
    obtain ⟨M1, h1⟩ := ih1 h.1
    obtain ⟨M2, h2⟩ := ih2 h.2
    exact ⟨max M1 M2, fun M' hM => ⟨h1 M' (by omega), h2 M' (by omega)⟩⟩
  · intro k x ih
    exact ih

theorem cells_mono {C C' : Blocks → Cell → Prop} (hc : ∀ a c, C a c → C' a c) : ∀ (x : Sheet) {around : Blocks}, AllCells C around x → AllCells C' around x := by
  intro x
  refine Sheet.rec (motive_1 := fun x => ∀ {around : Blocks}, AllCells C around x → AllCells C' around x)
    (motive_2 := fun fs => ∀ {around : Blocks}, AllCellsM C around fs → AllCellsM C' around fs)
    (motive_3 := fun e => ∀ {around : Blocks}, AllCells C around e.2 → AllCells C' around e.2) ?_ ?_ ?_ ?_ ?_ x
  · exact fun c around h => hc _ _ h
  · exact fun fs s ih around h => ih h
  · exact fun _ => trivial
  · intro e r ih1 ih2 around h
    obtain ⟨k, x⟩ := e
    rw [AllCellsM] at h ⊢
    exact ⟨ih1 h.1, ih2 h.2⟩
  · intro k x ih
    exact ih

mutual
/-- all cells, with their paths, satisfy `A` -/
def AllAt (A : List String → Cell → Prop) (path : List String) : Sheet → Prop
  | .cell c => A path c
  | .block fs _ => AllAtM A path fs
termination_by structural x => x
def AllAtM (A : List String → Cell → Prop) (path : List String) : List (String × Sheet) → Prop
  | [] => True
  | (k, x) :: r => AllAt A (path ++ [k]) x ∧ AllAtM A path r
termination_by structural x => x
end

mutual
/-- `n` has the maps of the sheet, and for each cell, at its path, a node satisfying `G` -/
def FilledAt (G : List String → Cell → Node Ex → Prop) (path : List String) : Sheet → Node Ex → Prop
  | .cell c, n => G path c n
  | .block fs s, n => ∃ m, n = .mk (.map m) s {} ∧ FilledAtM G path fs m
termination_by structural x => x
def FilledAtM (G : List String → Cell → Node Ex → Prop) (path : List String) : List (String × Sheet) → List (String × Node Ex) → Prop
  | [], m => m = []
  | (k, x) :: r, m => ∃ n m', m = (k, n) :: m' ∧ FilledAt G (path ++ [k]) x n ∧ FilledAtM G path r m'
termination_by structural x => x
end

theorem filledAt_of {P : Blocks → Cell → Node Ex → Prop} {A : List String → Cell → Prop} :
    ∀ (x : Sheet) {around : Blocks} {path : List String} {n : Node Ex}, AllAt A path x → Filled P around x n → FilledAt (fun p c _ => A p c) path x n := by
  intro x
  refine Sheet.rec (motive_1 := fun x => ∀ {around : Blocks} {path : List String} {n : Node Ex}, AllAt A path x → Filled P around x n → FilledAt (fun p c _ => A p c) path x n)
    (motive_2 := fun fs => ∀ {around : Blocks} {path : List String} {m : List (String × Node Ex)}, AllAtM A path fs → FilledM P around fs m → FilledAtM (fun p c _ => A p c) path fs m)
    (motive_3 := fun e => ∀ {around : Blocks} {path : List String} {n : Node Ex}, AllAt A path e.2 → Filled P around e.2 n → FilledAt (fun p c _ => A p c) path e.2 n) ?_ ?_ ?_ ?_ ?_ x
  · intro c around path n hc h
    exact hc
  · intro fs s ih around path n hc h
    rw [Filled] at h
    rw [FilledAt]
    rw [AllAt] at hc
    obtain ⟨m, h1, h3⟩ := h
    exact ⟨m, h1, ih hc h3⟩
  · intro around path m _ h
    exact h
  · intro e r ih1 ih2 around path m hc h
    obtain ⟨k, x⟩ := e
    rw [FilledM] at h
    rw [FilledAtM]
    rw [AllAtM] at hc
    obtain ⟨n, m', rfl, h2, h3⟩ := h
    exact ⟨n, m', rfl, ih1 hc.1 h2, ih2 hc.2 h3⟩
  · intro k x ih
    exact ih

theorem filled_of_at {G : List String → Cell → Node Ex → Prop} {P : Blocks → Cell → Node Ex → Prop} (h : ∀ p a c n, G p c n → P a c n) :
    ∀ (x : Sheet) {around : Blocks} {path : List String} {n : Node Ex}, FilledAt G path x n → Filled P around x n := by
  intro x
  refine Sheet.rec (motive_1 := fun x => ∀ {around : Blocks} {path : List String} {n : Node Ex}, FilledAt G path x n → Filled P around x n)
    (motive_2 := fun fs => ∀ {around : Blocks} {path : List String} {m : List (String × Node Ex)}, FilledAtM G path fs m → FilledM P around fs m)
    (motive_3 := fun e => ∀ {around : Blocks} {path : List String} {n : Node Ex}, FilledAt G path e.2 n → Filled P around e.2 n) ?_ ?_ ?_ ?_ ?_ x
  · intro c around path n hc
    exact h _ _ _ _ hc
  · intro fs s ih around path n h
    rw [FilledAt] at h
    rw [Filled]
    obtain ⟨m, h1, h3⟩ := h
    exact ⟨m, h1, ih h3⟩
  · intro around path m h
    exact h
  · intro e r ih1 ih2 around path m h
    obtain ⟨k, x⟩ := e
    rw [FilledAtM] at h
    rw [FilledM]
    obtain ⟨n, m', rfl, h2, h3⟩ := h
    exact ⟨n, m', rfl, ih1 h2, ih2 h3⟩
  · intro k x ih
    exact ih

section
variable {L : Lang Ex} {st : List (Node Ex)} {G : List String → Cell → Node Ex → Prop} {P : Blocks → Cell → Node Ex → Prop} {Q : Blocks → Cell → Node Ex → Node Ex → Prop} {C : Blocks → Cell → Prop} {F : Nat}

/-- what a pass does with a cell -/
def CellPass (L : Lang Ex) (st : List (Node Ex)) (G : List String → Cell → Node Ex → Prop) (P : Blocks → Cell → Node Ex → Prop) (Q : Blocks → Cell → Node Ex → Node Ex → Prop) (C : Blocks → Cell → Prop) (F : Nat) : Prop :=
  ∀ (around : Blocks) (c : Cell) (n : Node Ex) (env : Env Ex) (fuel : Nat), P around c n → G env.stubPath c n → C around c → Tidy L (.cell c) → EnvOk L st P around env → F < fuel →
    ∃ n', flow L fuel env n true false = .ok n' ∧ n'.ann.undefined = false ∧ Q around c n n'

theorem envOk_path {around : Blocks} {env : Env Ex} (h : EnvOk L st P around env) (k : String) : EnvOk L st P around (env.withPath k) := ⟨h.1, h.2, h.3, h.4, h.5⟩

theorem pass_block {fs : List (String × Sheet)} {around : Blocks} {m : List (String × Node Ex)} (s : String) (ht : Tidy L (.block fs s)) (env : Env Ex) (he : EnvOk L st P around env) (fuel : Nat)
    (h : ∀ env', EnvOk L st P (fs :: around) env' → env'.stubPath = env.stubPath → ∃ items : List (String × (Node Ex × Node Ex)), m = items.map (fun e => (e.1, e.2.1)) ∧ PairedM Q (fs :: around) fs items ∧
      ∀ e ∈ items, flow L fuel (env'.withPath e.1) e.2.1 true false = .ok e.2.2 ∧ e.2.2.ann.undefined = false) (hm : FilledM P (fs :: around) fs m) (so : Bool) :
    ∃ n', flow L (fuel + 1) env (.mk (.map m) s {}) so false = .ok n' ∧ n'.ann.undefined = false ∧ Paired Q around (.block fs s) (.mk (.map m) s {}) n' := by
  rw [Tidy] at ht
  have he' : EnvOk L st P (fs :: around) (env.withScope m) := ⟨he.1, he.2, he.3, he.4, m, _, _, rfl, hm, ht.2, he.5⟩
  obtain ⟨items, rfl, h2, h3⟩ := h _ he' rfl
  have hkeys := pairedM_keys h2
  have hk : ∀ e ∈ items, PlainKey L e.1 := by
    intro e hi
    have : e.1 ∈ mkeys fs := by rw [← hkeys]; exact List.mem_map.2 ⟨e, hi, rfl⟩
    obtain ⟨x, hx, hx'⟩ := List.mem_map.1 this
    rw [← hx']
    exact (tidyM_get ht.2 x hx).1
  refine ⟨_, flow_fields_stubs L fuel env items s so Prod.fst Prod.snd (by rw [he.stubs]; exact he.plain) ?_ (fun e hi => ⟨(hk e hi).1, (hk e hi).2.1⟩) (fun e hi => ?_), rfl, ?_⟩
  · rw [MapOK, hkeys]
    exact ht.1
  · rw [(hk e hi).2.2.2]
    exact h3 e hi
  · rw [Paired]
    exact ⟨items, rfl, rfl, h2⟩

theorem pass_sheet (hcell : CellPass L st G P Q C F) (x : Sheet) : ∀ {around : Blocks} {n : Node Ex} {env : Env Ex} {fuel : Nat}, Filled P around x n → FilledAt G env.stubPath x n → AllCells C around x → Tidy L x → EnvOk L st P around env →
    F + x.height < fuel → ∃ n', flow L fuel env n true false = .ok n' ∧ n'.ann.undefined = false ∧ Paired Q around x n n' := by
  refine Sheet.rec (motive_1 := fun x => ∀ {around : Blocks} {n : Node Ex} {env : Env Ex} {fuel : Nat}, Filled P around x n → FilledAt G env.stubPath x n → AllCells C around x → Tidy L x → EnvOk L st P around env →
    F + x.height < fuel → ∃ n', flow L fuel env n true false = .ok n' ∧ n'.ann.undefined = false ∧ Paired Q around x n n')
    (motive_2 := fun fs => ∀ {around : Blocks} {m : List (String × Node Ex)} {env : Env Ex} {fuel : Nat}, FilledM P around fs m → FilledAtM G env.stubPath fs m → AllCellsM C around fs → TidyM L fs → EnvOk L st P around env →
      F + heightM fs < fuel → ∃ items : List (String × (Node Ex × Node Ex)), m = items.map (fun e => (e.1, e.2.1)) ∧ PairedM Q around fs items ∧
      ∀ e ∈ items, flow L fuel (env.withPath e.1) e.2.1 true false = .ok e.2.2 ∧ e.2.2.ann.undefined = false)
    (motive_3 := fun e => ∀ {around : Blocks} {n : Node Ex} {env : Env Ex} {fuel : Nat}, Filled P around e.2 n → FilledAt G env.stubPath e.2 n → AllCells C around e.2 → Tidy L e.2 → EnvOk L st P around env →
    F + e.2.height < fuel → ∃ n', flow L fuel env n true false = .ok n' ∧ n'.ann.undefined = false ∧ Paired Q around e.2 n n') ?_ ?_ ?_ ?_ ?_ x
  · intro c around n env fuel h hg hc ht he hfu
    exact hcell around c n env fuel h hg hc ht he hfu
  · intro fs s ih around n env fuel h hg hc ht he hfu
    rw [Filled] at h
    rw [FilledAt] at hg
    obtain ⟨m, rfl, h⟩ := h
    obtain ⟨m1, hm1, hg⟩ := hg
    injection hm1 with hm1
    injection hm1 with hm1
    subst hm1
    rw [Sheet.height] at hfu
    obtain ⟨f, rfl⟩ : ∃ f, fuel = f + 1 := ⟨fuel - 1, by omega⟩
    refine pass_block s ht env he f (fun env' he' hsp => ih h (by rw [hsp]; exact hg) hc ?_ he' (by omega)) h true
    rw [Tidy] at ht
    exact ht.2
  · intro around m env fuel h _ _ _ _ _
    rw [FilledM] at h
    subst h
    exact ⟨[], rfl, rfl, fun _ h => nomatch h⟩
  · intro e r ih1 ih2 around m env fuel h hg hc ht he hfu
    obtain ⟨k, x⟩ := e
    rw [FilledM] at h
    rw [AllCellsM] at hc
    rw [TidyM] at ht
    rw [heightM] at hfu
    rw [FilledAtM] at hg
    obtain ⟨n, m', rfl, h1, h2⟩ := h
    obtain ⟨n1, m1, hm1, hg1, hg2⟩ := hg
    injection hm1 with hm2 hm3
    injection hm2 with _ hm4
    subst hm3
    subst hm4
    obtain ⟨n', g1, g2, g3⟩ := ih1 h1 hg1 hc.1 ht.2.1 (envOk_path he k) (show F + x.height < fuel by omega)
    obtain ⟨items, rfl, g4, g5⟩ := ih2 h2 hg2 hc.2 ht.2.2 he (show F + heightM r < fuel by omega)
    refine ⟨(k, (n, n')) :: items, rfl, ?_, ?_⟩
    · rw [PairedM]
      exact ⟨n, n', items, rfl, g3, g4⟩
    · intro e he
      rcases List.mem_cons.1 he with rfl | he
      · exact ⟨g1, g2⟩
      · exact g5 e he
  · intro k x ih
    exact ih

theorem pass_fieldsS (hcell : CellPass L st G P Q C F) (fs : List (String × Sheet)) : ∀ {around : Blocks} {m : List (String × Node Ex)} {env : Env Ex} {fuel : Nat}, FilledM P around fs m → FilledAtM G env.stubPath fs m → AllCellsM C around fs → TidyM L fs → EnvOk L st P around env → F + heightM fs < fuel → ∃ items : List (String × (Node Ex × Node Ex)), m = items.map (fun e => (e.1, e.2.1)) ∧ PairedM Q around fs items ∧
      ∀ e ∈ items, flow L fuel (env.withPath e.1) e.2.1 true false = .ok e.2.2 ∧ e.2.2.ann.undefined = false := by
  induction fs with
  | nil =>
    intro around m env fuel h _ _ _ _ _
    rw [FilledM] at h
    subst h
    exact ⟨[], rfl, rfl, fun _ h => nomatch h⟩
  | cons e r ih =>
    intro around m env fuel h hg hc ht he hfu
    obtain ⟨k, x⟩ := e
    rw [FilledM] at h
    rw [AllCellsM] at hc
    rw [TidyM] at ht
    rw [heightM] at hfu
    rw [FilledAtM] at hg
    obtain ⟨n, m', rfl, h1, h2⟩ := h
    obtain ⟨n1, m1, hm1, hg1, hg2⟩ := hg
    injection hm1 with hm2 hm3
    injection hm2 with _ hm4
    subst hm3
    subst hm4
    obtain ⟨n', g1, g2, g3⟩ := pass_sheet hcell x h1 hg1 hc.1 ht.2.1 (envOk_path he k) (show F + x.height < fuel by omega)
    obtain ⟨items, rfl, g4, g5⟩ := ih h2 hg2 hc.2 ht.2.2 he (show F + heightM r < fuel by omega)
    refine ⟨(k, (n, n')) :: items, rfl, ?_, ?_⟩
    · rw [PairedM]
      exact ⟨n, n', items, rfl, g3, g4⟩
    · intro e he
      rcases List.mem_cons.1 he with rfl | he
      · exact ⟨g1, g2⟩
      · exact g5 e he

/-- a pass over the whole document -/
theorem pass_root (hcell : CellPass L st G P Q C F) {fs : List (String × Sheet)} {s : String} {n : Node Ex} {env : Env Ex} {fuel : Nat} (hn : Filled P [] (.block fs s) n)
    (hg : FilledAt G env.stubPath (.block fs s) n) (hc : AllCells C [] (.block fs s)) (ht : Tidy L (.block fs s)) (he : EnvOk L st P [] env) (hfu : F + (Sheet.block fs s).height < fuel) (so : Bool) :
    ∃ n', flow L fuel env n so false = .ok n' ∧ n'.ann.undefined = false ∧ Paired Q [] (.block fs s) n n' := by
  rw [Filled] at hn
  obtain ⟨m, rfl, hm⟩ := hn
  rw [FilledAt] at hg
  obtain ⟨m1, hm1, hg⟩ := hg
  injection hm1 with hm1
  injection hm1 with hm1
  subst hm1
  rw [Sheet.height] at hfu
  obtain ⟨f, rfl⟩ : ∃ f, fuel = f + 1 := ⟨fuel - 1, by omega⟩
  refine pass_block s ht env he f (fun env' he' hsp => ?_) hm so
  rw [AllCells] at hc
  exact pass_fieldsS hcell fs hm (by rw [hsp]; exact hg) hc (by rw [Tidy] at ht; exact ht.2) he' (by omega)
end

theorem paired_filled {Q : Blocks → Cell → Node Ex → Node Ex → Prop} {P : Blocks → Cell → Node Ex → Prop} :
    ∀ (x : Sheet) {around : Blocks} {n n' : Node Ex}, Paired Q around x n n' → Filled P around x n → Paired (fun a c n n' => Q a c n n' ∧ P a c n) around x n n' := by
  intro x
  refine Sheet.rec (motive_1 := fun x => ∀ {around : Blocks} {n n' : Node Ex}, Paired Q around x n n' → Filled P around x n → Paired (fun a c n n' => Q a c n n' ∧ P a c n) around x n n')
    (motive_2 := fun fs => ∀ {around : Blocks} {items : List (String × (Node Ex × Node Ex))}, PairedM Q around fs items → FilledM P around fs (items.map (fun e => (e.1, e.2.1))) →
      PairedM (fun a c n n' => Q a c n n' ∧ P a c n) around fs items)
    (motive_3 := fun e => ∀ {around : Blocks} {n n' : Node Ex}, Paired Q around e.2 n n' → Filled P around e.2 n → Paired (fun a c n n' => Q a c n n' ∧ P a c n) around e.2 n n') ?_ ?_ ?_ ?_ ?_ x
  · intro c around n n' h h'
    exact ⟨h, h'⟩
  · intro fs s ih around n n' h h'
    rw [Paired] at h ⊢
    rw [Filled] at h'
    obtain ⟨items, rfl, rfl, h3⟩ := h
    obtain ⟨m, h4, h5⟩ := h'
    injection h4 with h6
    injection h6 with h7
    subst h7
    exact ⟨items, rfl, rfl, ih h3 h5⟩
  · intro around items h _
    exact h
  · intro e r ih1 ih2 around items h h'
    obtain ⟨k, x⟩ := e
    rw [PairedM] at h ⊢
    obtain ⟨n, n', items', rfl, h2, h3⟩ := h
    simp only [List.map_cons] at h'
    rw [FilledM] at h'
    obtain ⟨n1, m', h4, h5, h6⟩ := h'
    injection h4 with h7 h8
    injection h7 with _ h9
    subst h9
    subst h8
    exact ⟨n, n', items', rfl, ih1 h2 h5, ih2 h3 h6⟩
  · intro k x ih
    exact ih

theorem deepEq_expr {n n' : Node Ex} (h : deepEq n n' = true) : n.val.isExpr = n'.val.isExpr := by
  obtain ⟨v, s, a⟩ := n
  obtain ⟨v', s', a'⟩ := n'
  simp only [deepEq, Bool.and_eq_true] at h
  have := h.2
  cases v <;> cases v' <;> first | rfl | simp [deepEqV] at this

section
variable {X : EvLib} {R : RefLib Ex} {base : Lang Ex} {fns : Fns} {K F : Nat} {st : List (Node Ex)}

theorem step_pass (hX : X.ctl = false) (hR : R.ctl = false) (hf : FnsOk X fns) (k : Nat) :
    CellPass (exLang X R base) st (fun p c _ => Agrees st p c) (CellAt (exLang X R base) fns (ComputesIn (exLang X R base) fns k))
      (fun a c n n' => CellAt (exLang X R base) fns (ComputesIn (exLang X R base) fns (k + 1)) a c n' ∧ (n.val.isExpr = false → n' = n)) (CellOk (exLang X R base) fns K F) F := by
  intro around c n env fuel hn hg hc _ he hfu
  obtain ⟨n', h1, h2, h3, h4⟩ := cell_step hX hR hf hc hn he hg hfu
  exact ⟨n', h1, h2, h3, h4⟩

theorem settle_pass (hX : X.ctl = false) (hR : R.ctl = false) (hf : FnsOk X fns) :
    CellPass (exLang X R base) st (fun p c _ => Agrees st p c) (CellAt (exLang X R base) fns (Computes (exLang X R base) fns))
      (fun a c n n' => CellAt (exLang X R base) fns (Computes (exLang X R base) fns) a c n' ∧ SettledCell X (exLang X R base) fns a n' ∧ (SettledCell X (exLang X R base) fns a n → n' = n))
      (CellOk (exLang X R base) fns K F) F := by
  intro around c n env fuel hn hg hc _ he hfu
  obtain ⟨n', h1, h2, h3, h4⟩ := cell_settle hX hR hf hc hn he hg hfu
  exact ⟨n', h1, h2, h3, h4⟩

theorem first_pass (D : Nat) : CellPass (exLang X R base) st (Starts (exLang X R base) st D) (fun _ c n => ∃ p, Starts (exLang X R base) st D p c n)
      (fun a c n n' => (∃ p, Starts (exLang X R base) st D p c n) ∧ CellAt (exLang X R base) fns (ComputesIn (exLang X R base) fns 0) a c n' ∧
        ∀ t s o, c = .formula t s o → n.val.isExpr = false ∧ n'.val.isExpr = true) (CellOk (exLang X R base) fns K F) D := by
  intro around c n env fuel hn hg hc ht he hfu
  obtain ⟨n', h1, h2, h3, h4⟩ := cell_first hc ht he hg (Nat.le_of_lt hfu) (by omega)
  exact ⟨n', h1, h2, hn, h3, h4⟩

/-- the environment at the root of the document -/
structure RootOk (L : Lang Ex) (st : List (Node Ex)) (x : Sheet) (env : Env Ex) : Prop where
  stubs : env.stubs = st
  plain : ∀ s ∈ st, Plain L s
  merges : env.nomerge = false
  outer : env.outer = []
  scopes : env.scopes = []
  agrees : AllAt (Agrees st) env.stubPath x

theorem rootOk_env {L : Lang Ex} {x : Sheet} {env : Env Ex} {P : Blocks → Cell → Node Ex → Prop} (h : RootOk L st x env) : EnvOk L st P [] env :=
  ⟨h.stubs, h.plain, h.merges, h.outer, h.scopes⟩

/-- a document that does not change in a pass contains all values -/
theorem fixpoint_values (hX : X.ctl = false) (hR : R.ctl = false) (hf : FnsOk X fns) {fs : List (String × Sheet)} {s : String} (hc : AllCells (CellOk (exLang X R base) fns K F) [] (.block fs s))
    (ht : Tidy (exLang X R base) (.block fs s)) {env : Env Ex} (he : RootOk (exLang X R base) st (.block fs s) env) {fuel : Nat}
    (hfu : F + (Sheet.block fs s).height < fuel) (so : Bool) {n n' : Node Ex} (hflow : flow (exLang X R base) fuel env n so false = .ok n') (hd : deepEq n n' = true) {k : Nat}
    (hn : Filled (CellAt (exLang X R base) fns (ComputesIn (exLang X R base) fns k)) [] (.block fs s) n) (j : Nat) :
    Filled (CellAt (exLang X R base) fns (ComputesIn (exLang X R base) fns (k + j))) [] (.block fs s) n := by
  induction j with
  | zero => exact hn
  | succ j ih =>
    have hpass := pass_root (step_pass hX hR hf (k + j)) (env := env) ih (filledAt_of _ he.agrees ih) hc ht (rootOk_env he) hfu so
    obtain ⟨n2, h1, -, h3⟩ := hpass
    rw [hflow] at h1
    cases h1
    have h4 := paired_filled _ (paired_deepEq _ ht h3 hd) ih
    refine paired_fst ?_ _ h4
    rintro a c m m' ⟨⟨⟨h5, h6⟩, h7⟩, h8⟩
    by_cases hx : m.val.isExpr = false
    · rw [h6 hx] at h5
      exact h5
    · refine ⟨h8.1, fun v hv => ?_⟩
      have := (h5.2 v hv).2
      exact absurd (plain_value this) (by rw [← deepEq_expr h7]; exact hx)

theorem known_values {fs : List (String × Sheet)} {s : String} (hc : AllCells (CellOk (exLang X R base) fns K F) [] (.block fs s)) {n : Node Ex}
    (hn : Filled (CellAt (exLang X R base) fns (ComputesIn (exLang X R base) fns K)) [] (.block fs s) n) :
    Filled (CellAt (exLang X R base) fns (Computes (exLang X R base) fns)) [] (.block fs s) n :=
  filled_mono (fun _ _ _ hc h => ⟨h.1, fun v hv => h.2 v (hc.steps v hv)⟩) _ hc hn

theorem inv_refl {L : Lang Ex} {around : Blocks} {c : Cell} {n : Node Ex} (h : CellInv L fns around c n) : deepEq n n = true := by
  by_cases hx : n.val.isExpr = false
  · exact deepEq_refl_plain n (inv_final h hx).1
  · obtain ⟨v, s, a⟩ := n
    cases v with
    | expr e => simp [deepEq, deepEqV]
    | _ => exact absurd rfl hx

theorem pass_flow {L : Lang Ex} {fuel : Nat} {env : Env Ex} {n0 n : Node Ex} {so : Bool} {r : Run (Node Ex)} (h : passEnv env n0 = env) (hf : flow L fuel env n so false = r) :
    pass L fuel env n0 n so = r := by
  rw [pass, h]
  exact hf

/-- the loop, when the values of `k` steps are known -/
theorem loop_from (hX : X.ctl = false) (hR : R.ctl = false) (hf : FnsOk X fns) {fs : List (String × Sheet)} {s : String} (hc : AllCells (CellOk (exLang X R base) fns K F) [] (.block fs s))
    (ht : Tidy (exLang X R base) (.block fs s)) {env : Env Ex} (he : RootOk (exLang X R base) st (.block fs s) env) {fuel : Nat}
    (hfu : F + (Sheet.block fs s).height < fuel) (so : Bool) {n0 : Node Ex} (hn0 : passEnv env n0 = env) (j : Nat) : ∀ (k : Nat) (n : Node Ex), k + j = K →
      Filled (CellAt (exLang X R base) fns (ComputesIn (exLang X R base) fns k)) [] (.block fs s) n → ∀ passes ≥ j + 2,
      ∃ r, flowLoop (exLang X R base) fuel env n0 so passes n = .ok r ∧ Filled (CellAt (exLang X R base) fns (Computes (exLang X R base) fns)) [] (.block fs s) r := by
  induction j with
  | zero =>
    intro k n hk hn passes hp
    obtain rfl : k = K := by omega
    obtain ⟨p, rfl⟩ : ∃ p, passes = p + 2 := ⟨passes - 2, by omega⟩
    have hn' := known_values hc hn
    obtain ⟨n1, h1, h2, h3⟩ := pass_root (settle_pass hX hR hf) (env := env) hn' (filledAt_of _ he.agrees hn') hc ht (rootOk_env he) hfu so
    by_cases hd : deepEq n n1 = true
    · exact ⟨n, flowLoop_last _ _ _ _ _ n1 _ _ (pass_flow hn0 h1) h2 hd, hn'⟩
    · rw [flowLoop_next (exLang X R base) fuel env n0 _ n1 so _ (pass_flow hn0 h1) h2 (by simpa using hd)]
      have hn1 := paired_snd (P := CellAt (exLang X R base) fns (Computes (exLang X R base) fns)) (fun _ _ _ _ h => h.1) _ h3
      have hset := paired_snd (P := fun a _ n => SettledCell X (exLang X R base) fns a n) (fun _ _ _ _ h => h.2.1) _ h3
      obtain ⟨n2, g1, g2, g3⟩ := pass_root (settle_pass hX hR hf) (env := env) hn1 (filledAt_of _ he.agrees hn1) hc ht (rootOk_env he) hfu so
      have heq := paired_eq (fun a c m m' h => h.1.2.2 h.2) _ (paired_filled _ g3 hset)
      subst heq
      exact ⟨n2, flowLoop_last _ _ _ _ _ n2 _ _ (pass_flow hn0 g1) g2 (filled_refl (fun _ _ _ h => inv_refl h.1) _ ht hn1), hn1⟩
  | succ j ih =>
    intro k n hk hn passes hp
    obtain ⟨p, rfl⟩ : ∃ p, passes = p + 1 := ⟨passes - 1, by omega⟩
    obtain ⟨n1, h1, h2, h3⟩ := pass_root (step_pass hX hR hf k) (env := env) hn (filledAt_of _ he.agrees hn) hc ht (rootOk_env he) hfu so
    by_cases hd : deepEq n n1 = true
    · refine ⟨n, flowLoop_last _ _ _ _ _ n1 _ _ (pass_flow hn0 h1) h2 hd, known_values hc ?_⟩
      have := fixpoint_values hX hR hf hc ht he hfu so h1 hd hn (j + 1)
      rwa [hk] at this
    · rw [flowLoop_next (exLang X R base) fuel env n0 _ n1 so _ (pass_flow hn0 h1) h2 (by simpa using hd)]
      exact ih (k + 1) n1 (by omega) (paired_snd (fun _ _ _ _ h => h.1) _ h3) p (by omega)

theorem loop_source (hX : X.ctl = false) (hR : R.ctl = false) (hf : FnsOk X fns) {fs : List (String × Sheet)} {s : String} (hc : AllCells (CellOk (exLang X R base) fns K F) [] (.block fs s))
    (ht : Tidy (exLang X R base) (.block fs s)) {env : Env Ex} (he : RootOk (exLang X R base) st (.block fs s) env) {fuel : Nat}
    {D : Nat} (hfu : F + (Sheet.block fs s).height < fuel) (hfd : D + (Sheet.block fs s).height < fuel) (so : Bool) {n0 : Node Ex}
    (hn0 : FilledAt (Starts (exLang X R base) st D) env.stubPath (.block fs s) n0) {passes : Nat} (hp : K + 3 ≤ passes) :
    ∃ r, flowLoop (exLang X R base) fuel env n0 so passes n0 = .ok r ∧
      Filled (CellAt (exLang X R base) fns (Computes (exLang X R base) fns)) [] (.block fs s) r := by
  obtain ⟨p, rfl⟩ : ∃ p, passes = p + 1 := ⟨passes - 1, by omega⟩
  obtain ⟨n1, h1, h2, h3⟩ := pass_root (first_pass (fns := fns) D) (env := env) (filled_of_at (fun p _ _ _ h => ⟨p, h⟩) _ hn0) hn0 hc ht (rootOk_env he) hfd so
  have hpe : passEnv env n0 = env := by
    rw [FilledAt] at hn0
    obtain ⟨m, rfl, -⟩ := hn0
    rfl
  by_cases hd : deepEq n0 n1 = true
  · refine ⟨_, flowLoop_last _ _ _ _ _ n1 _ _ (pass_flow hpe h1) h2 hd, ?_⟩
    refine paired_fst ?_ _ (paired_deepEq _ ht h3 hd)
    rintro a c n n' ⟨⟨⟨q, g1⟩, g2, g3⟩, g4⟩
    cases c with
    | data d =>
      obtain ⟨⟨rfl, hp⟩, -⟩ := g2
      obtain rfl := g1.2.2.2 g4
      exact ⟨⟨rfl, hp⟩, fun v hv => ⟨(computes_data.1 hv).symm, hp⟩⟩
    | formula t s' o =>
      have := deepEq_expr g4
 
      rw [(g3 t s' o rfl).1, (g3 t s' o rfl).2] at this
      cases this
  · rw [flowLoop_next (exLang X R base) fuel env n0 _ n1 so _ (pass_flow hpe h1) h2 (by simpa using hd)]
    exact loop_from hX hR hf hc ht he hfu so hpe K 0 n1 (by omega) (paired_snd (fun _ _ _ _ h => h.2.1) _ h3) p (by omega)

end
end Spiff
