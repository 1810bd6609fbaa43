import Verif.Spec.Refs
import Verif.Props.Intrinsics
import Verif.Props.Find
/-
C65: the values of references `a.b.c`, `(e).b.c` and `e.[i]`.
-/
namespace Spiff
open Spec

theorem localReady_iff (ctl : Bool) (v : Val Ex) : localReady ctl v = true ↔ Usable ctl v := by
  unfold Usable
  cases v <;> simp [localReady, isMapResolved_iff, isListResolved_iff]

theorem completeV_iff (ctl : Bool) (v : Val Ex) : completeV ctl v = true ↔ ¬ Unfinished ctl v := by
  constructor
  · intro h hu
    induction hu with
    | expr e => simp [completeV] at h
    | merge m hm => simp only [completeV, Bool.and_eq_true, isMapResolved_iff] at h; exact hm h.1
    | field m k n hk _ ih =>
      simp only [completeV, Bool.and_eq_true, completeM_iff] at h
      exact ih (h.2 (k, n) hk)
    | entry l n hn _ ih =>
      simp only [completeV, completeL_iff] at h
      exact ih (h n hn)
    | str s hs => simp [completeV, hs] at h
  · refine Val.rec (motive_1 := fun v => ¬ Unfinished ctl v → completeV ctl v = true)
      (motive_2 := fun n => ¬ Unfinished ctl n.val → completeV ctl n.val = true)
      (motive_3 := fun l => ∀ n ∈ l, ¬ Unfinished ctl n.val → completeV ctl n.val = true)
      (motive_4 := fun l => ∀ x ∈ l, ¬ Unfinished ctl x.2.val → completeV ctl x.2.val = true)
      (motive_5 := fun x => ¬ Unfinished ctl x.2.val → completeV ctl x.2.val = true)
      ?_ ?_ ?_ ?_ ?_ ?_ ?_ ?_ ?_ ?_ ?_ ?_ ?_ ?_ ?_ ?_ v
    · intro _; rfl
    · intro _ _; rfl
    · intro _ _; rfl
    · intro _ _; rfl
    · intro s h
      simp only [completeV, Bool.not_eq_true']
      cases hs : strDynaml s with
      | false => rfl
      | true => exact absurd (.str s hs) h
    · intro l ih h
      simp only [completeV, completeL_iff]
      exact fun n hn => ih n hn (fun hu => h (.entry l n hn hu))
    · intro m ih h
      simp only [completeV, Bool.and_eq_true, completeM_iff, isMapResolved_iff]
      refine ⟨by_contra (fun hm => h (.merge m hm)), ?_⟩
      intro x hx
      exact ih x hx (fun hu => h (.field m x.1 x.2 hx hu))
    · intro e h; exact absurd (.expr e) h
    · intro _ _ _; rfl
    · intro _ _; rfl
    · intro v s a ih h; exact ih h
    · intro n hn; simp at hn
    · intro n r h1 h2 x hx
      rcases List.mem_cons.1 hx with rfl | hx
      · exact h1
      · exact h2 x hx
    · intro n hn; simp at hn
    · intro n r h1 h2 x hx
      rcases List.mem_cons.1 hx with rfl | hx
      · exact h1
      · exact h2 x hx
    · intro k n h; exact h

/-! ### the loop over the prefixes of a path -/

/-- the step finds a usable node -/
def GoodLook (ctl : Bool) (r : Look (Node Ex)) : Prop := ∃ c, r = .found c ∧ Usable ctl c.val

/-- The outcome of the loop: all steps are good and the result is the last node, or there is a first step that is not good. -/
theorem findSteps_cases (ctl : Bool) (e : Ex) (look : Nat → Look (Node Ex)) : ∀ (n k : Nat) (last : Node Ex),
    ((∀ i < n, GoodLook ctl (look (k + i))) ∧ ∃ s, findSteps ctl e look k n last = .inl s ∧ (n = 0 → s = last) ∧ (∀ m, n = m + 1 → look (k + m) = .found s)) ∨
    (∃ j < n, (∀ i < j, GoodLook ctl (look (k + i))) ∧
      ((∃ c, look (k + j) = .found c ∧ ¬ Usable ctl c.val ∧ ∃ i, findSteps ctl e look k n last = .inr (.val (.expr e) i) ∧ i.undefined = false) ∨
       (look (k + j) = .missing ∧ ∃ i, findSteps ctl e look k n last = .inr (.fail i)) ∨
       (look (k + j) = .panic ∧ findSteps ctl e look k n last = .inr .crash)))
  | 0, k, last => by left; simp [findSteps]
  | n + 1, k, last => by
    rw [findSteps]
    cases hl : look k with
    | panic =>
      right
      exact ⟨0, by omega, by simp, .inr (.inr ⟨by simpa using hl, rfl⟩)⟩
    | missing =>
      right
      exact ⟨0, by omega, by simp, .inr (.inl ⟨by simpa using hl, _, rfl⟩)⟩
    | found c =>
      simp only
      by_cases hu : Usable ctl c.val
      · rw [if_pos ((localReady_iff ..).2 hu)]
        have hg : ∀ j, (∀ i < j, GoodLook ctl (look (k + 1 + i))) → ∀ i < j + 1, GoodLook ctl (look (k + i)) := by
          intro j h i hi
          cases i with
          | zero => exact ⟨c, by simpa using hl, hu⟩
          | succ i => have := h i (by omega); rwa [show k + 1 + i = k + (i + 1) by omega] at this
        rcases findSteps_cases ctl e look n (k + 1) c with ⟨h1, s, h2, h3, h4⟩ | ⟨j, hj, h1, h2⟩
        · left
          refine ⟨hg n h1, s, h2, by omega, ?_⟩
          intro m hm
          obtain rfl : n = m := by omega
          cases hn : n with
          | zero => rw [h3 hn]; simpa using hl
          | succ m => have := h4 m hn; rwa [show k + 1 + m = k + (m + 1) by omega] at this
        · right
          refine ⟨j + 1, by omega, hg j h1, ?_⟩
          rw [show k + 1 + j = k + (j + 1) by omega] at h2
          exact h2
      · rw [if_neg (fun h => hu ((localReady_iff ..).1 h))]
        right
        exact ⟨0, by omega, by simp, .inl ⟨c, by simpa using hl, hu, _, rfl, rfl⟩⟩

/-- Specification of an outcome for a path: all prefixes lead to usable nodes, `v` is the value of the last one (and it is finished if
required). -/
def PathValue (ctl : Bool) (D : List String → Look (Node Ex) → Prop) (path : List String) (whole : Bool) (v : Val Ex) : Prop :=
  WayOpen ctl D path false ∧ ∃ n, D path (.found n) ∧ n.val = v ∧ (whole = true → ¬ Unfinished ctl v)

/-- some prefix leads to a node that is still to be determined, or the last node is not finished, although this is required -/
def PathLater (ctl : Bool) (D : List String → Look (Node Ex) → Prop) (path : List String) (whole : Bool) : Prop :=
  (∃ q c, q ≠ [] ∧ q <+: path ∧ WayOpen ctl D q true ∧ D q (.found c) ∧ ¬ Usable ctl c.val) ∨
  (whole = true ∧ WayOpen ctl D path false ∧ ∃ n, D path (.found n) ∧ Unfinished ctl n.val)

/-- some prefix leads nowhere (all shorter ones lead to usable nodes) -/
def PathMissing (ctl : Bool) (D : List String → Look (Node Ex) → Prop) (path : List String) : Prop :=
  ∃ q, q ≠ [] ∧ q <+: path ∧ WayOpen ctl D q true ∧ D q .missing

theorem prefix_take {α : Type} {q p : List α} (h : q <+: p) : q = p.take q.length := List.prefix_iff_eq_take.1 h

section
variable {ctl : Bool} {path : List String} {D : List String → Look (Node Ex) → Prop} {look : Nat → Look (Node Ex)}
  (hD : ∀ i < path.length, ∀ r, D (path.take (i + 1)) r ↔ look i = r)
include hD

theorem wayOpen_index (j : Nat) (hj : j < path.length) :
    (WayOpen ctl D (path.take (j + 1)) true ↔ ∀ i < j, GoodLook ctl (look i)) ∧
    (WayOpen ctl D (path.take (j + 1)) false ↔ ∀ i < j + 1, GoodLook ctl (look i)) := by
  have hpre : ∀ i ≤ j, path.take (i + 1) <+: path.take (j + 1) := fun i hi => List.take_prefix_take_left (by omega)
  have hlen : ∀ i ≤ j, (path.take (i + 1)).length = i + 1 := fun i hi => by rw [List.length_take]; omega
  have hq : ∀ q, q ≠ [] → q <+: path.take (j + 1) → ∃ i ≤ j, q = path.take (i + 1) := by
    intro q hq h
    have h1 := prefix_take h
    have h2 := h.length_le
    rw [hlen j (le_refl j)] at h2
    have h3 : q.length ≠ 0 := by simpa using hq
    refine ⟨q.length - 1, by omega, ?_⟩
    rw [List.take_take] at h1
    rw [show q.length - 1 + 1 = min q.length (j + 1) by omega]
    exact h1
  have hne : ∀ i ≤ j, path.take (i + 1) ≠ [] := fun i hi h => by
    have := hlen i hi; rw [h] at this; simp at this
  constructor
  · constructor
    · intro h i hi
      obtain ⟨c, hc, hu⟩ := h _ (hne i (by omega)) (hpre i (by omega)) (fun _ he => by
        have h1 := hlen i (by omega)
        rw [he, hlen j (le_refl j)] at h1
        omega)
      exact ⟨c, (hD i (by omega) _).1 hc, hu⟩
    · intro h q h1 h2 h3
      obtain ⟨i, hi, rfl⟩ := hq q h1 h2
      have hij : i ≠ j := by rintro rfl; exact h3 rfl rfl
      obtain ⟨c, hc, hu⟩ := h i (by omega)
      exact ⟨c, (hD i (by omega) _).2 hc, hu⟩
  · constructor
    · intro h i hi
      obtain ⟨c, hc, hu⟩ := h _ (hne i (by omega)) (hpre i (by omega)) (by simp)
      exact ⟨c, (hD i (by omega) _).1 hc, hu⟩
    · intro h q h1 h2 h3
      obtain ⟨i, hi, rfl⟩ := hq q h1 h2
      obtain ⟨c, hc, hu⟩ := h i (by omega)
      exact ⟨c, (hD i (by omega) _).2 hc, hu⟩

theorem wayOpen_all (hp : path ≠ []) : WayOpen ctl D path false ↔ ∀ i < path.length, GoodLook ctl (look i) := by
  have hn : path.length ≠ 0 := by simpa using hp
  have := (wayOpen_index (ctl := ctl) hD (path.length - 1) (by omega)).2
  rwa [show path.length - 1 + 1 = path.length by omega, List.take_length] at this

/-- the prefixes with a property of their lookup, by index -/
theorem prefix_index (Q : List String → Look (Node Ex) → Prop) (P : Look (Node Ex) → Prop) (hQ : ∀ q r, Q q r ↔ D q r ∧ P r) :
    (∃ q r, q ≠ [] ∧ q <+: path ∧ WayOpen ctl D q true ∧ Q q r) ↔ ∃ j < path.length, (∀ i < j, GoodLook ctl (look i)) ∧ P (look j) := by
  constructor
  · rintro ⟨q, r, h1, h2, h3, h4⟩
    have hl : q.length ≠ 0 := by simpa using h1
    have hle := h2.length_le
    have he : q = path.take (q.length - 1 + 1) := by
      rw [show q.length - 1 + 1 = q.length by omega]; exact prefix_take h2
    have hj : q.length - 1 < path.length := by omega
    generalize q.length - 1 = j at he hj
    subst he
    obtain ⟨h5, h6⟩ := (hQ _ _).1 h4
    refine ⟨j, hj, ((wayOpen_index hD j hj).1).1 h3, ?_⟩
    rwa [(hD j hj r).1 h5]
  · rintro ⟨j, hj, h1, h2⟩
    refine ⟨path.take (j + 1), look j, ?_, List.take_prefix _ _, ((wayOpen_index hD j hj).1).2 h1, (hQ _ _).2 ⟨(hD j hj _).2 rfl, h2⟩⟩
    intro h
    have := congrArg List.length h
    rw [List.length_take] at this
    simp at this
    subst this
    simp at hj

theorem refFind_cases (e : Ex) (hp : path ≠ []) (loc : Bool) :
    (∀ v, (refFind ctl e path.length look loc).Value v ↔ PathValue ctl D path (!loc) v) ∧
    ((refFind ctl e path.length look loc).LeftAs e ↔ PathLater ctl D path (!loc)) ∧
    ((refFind ctl e path.length look loc).Left ↔ PathLater ctl D path (!loc)) ∧
    ((refFind ctl e path.length look loc).Fails ↔ PathMissing ctl D path) := by
  have hn : path.length ≠ 0 := by simpa using hp
  have hlast : ∀ r, D path r ↔ look (path.length - 1) = r := by
    intro r
    have := hD (path.length - 1) (by omega) r
    rwa [show path.length - 1 + 1 = path.length by omega, List.take_length] at this
  have hV : ∀ v, PathValue ctl D path (!loc) v ↔ (∀ i < path.length, GoodLook ctl (look i)) ∧
      ∃ n, look (path.length - 1) = .found n ∧ n.val = v ∧ (loc = false → ¬ Unfinished ctl v) := by
    intro v
    simp only [PathValue, wayOpen_all hD hp, hlast, Bool.not_eq_true']
  have hL : PathLater ctl D path (!loc) ↔ (∃ j < path.length, (∀ i < j, GoodLook ctl (look i)) ∧ ∃ c, look j = .found c ∧ ¬ Usable ctl c.val) ∨
      (loc = false ∧ (∀ i < path.length, GoodLook ctl (look i)) ∧ ∃ n, look (path.length - 1) = .found n ∧ Unfinished ctl n.val) := by
    rw [← prefix_index hD (fun q r => D q r ∧ ∃ c, r = .found c ∧ ¬ Usable ctl c.val) (fun r => ∃ c, r = .found c ∧ ¬ Usable ctl c.val) (fun _ _ => Iff.rfl)]
    simp only [PathLater, wayOpen_all hD hp, hlast, Bool.not_eq_true']
    apply or_congr _ Iff.rfl
    constructor
    · rintro ⟨q, c, h1, h2, h3, h4, h5⟩; exact ⟨q, _, h1, h2, h3, h4, c, rfl, h5⟩
    · rintro ⟨q, r, h1, h2, h3, h4, c, rfl, h5⟩; exact ⟨q, c, h1, h2, h3, h4, h5⟩
  have hM : PathMissing ctl D path ↔ ∃ j < path.length, (∀ i < j, GoodLook ctl (look i)) ∧ look j = .missing := by
    rw [← prefix_index hD (fun q r => D q r ∧ r = .missing) (fun r => r = .missing) (fun _ _ => Iff.rfl)]
    constructor
    · rintro ⟨q, h1, h2, h3, h4⟩; exact ⟨q, _, h1, h2, h3, h4, rfl⟩
    · rintro ⟨q, r, h1, h2, h3, h4, rfl⟩; exact ⟨q, h1, h2, h3, h4⟩
  simp only [hV, hL, hM]
  have hbad : ∀ {j j' : Nat}, (∀ i < j, GoodLook ctl (look i)) → ¬ GoodLook ctl (look j) → (∀ i < j', GoodLook ctl (look i)) →
      ¬ GoodLook ctl (look j') → j = j' := by
    intro j j' h1 h2 h3 h4
    by_contra hne
    rcases Nat.lt_or_gt_of_ne hne with h | h
    · exact h2 (h3 j h)
    · exact h4 (h1 j' h)
  have nb1 : ∀ {r : Look (Node Ex)} {c}, r = .found c → ¬ Usable ctl c.val → ¬ GoodLook ctl r := by
    rintro r c rfl h ⟨c', h', hu⟩; cases h'; exact h hu
  have nb2 : ∀ {r : Look (Node Ex)}, r = .missing → ¬ GoodLook ctl r := by
    rintro r rfl ⟨c', h', hu⟩; cases h'
  have nb3 : ∀ {r : Look (Node Ex)}, r = .panic → ¬ GoodLook ctl r := by
    rintro r rfl ⟨c', h', hu⟩; cases h'
  simp only [refFind, hn, if_false]
  rcases findSteps_cases ctl e look path.length 0 (Node.new .nil "") with ⟨h1, s, h2, h3, h4⟩ | ⟨j, hj, h1, h2⟩
  · simp only [Nat.zero_add] at h1 h4
    have hs := h4 (path.length - 1) (by omega)
    rw [h2]
    simp only [refResult]
    have nobad : ∀ j < path.length, ¬ ¬ GoodLook ctl (look j) := fun j hj h => h (h1 j hj)
    by_cases hc : (!loc && !completeV ctl s.val) = true
    · rw [if_pos hc]
      simp only [Bool.and_eq_true, Bool.not_eq_true', ← Bool.not_eq_true, completeV_iff, not_not] at hc
      obtain ⟨c1, c2⟩ := hc
      have c1 : loc = false := by simpa using c1
      refine ⟨?_, ?_, ?_, ?_⟩
      · intro v
        constructor
        · rintro ⟨i, h, hv⟩; cases h; exact absurd rfl (hv e)
        · rintro ⟨_, n, g1, rfl, g2⟩
          rw [hs] at g1; cases g1
          exact absurd c2 (g2 c1)
      · exact ⟨fun _ => .inr ⟨c1, h1, s, hs, c2⟩, fun _ => ⟨_, rfl, rfl⟩⟩
      · exact ⟨fun _ => .inr ⟨c1, h1, s, hs, c2⟩, fun _ => ⟨_, _, rfl⟩⟩
      · constructor
        · rintro ⟨i, h⟩; cases h
        · rintro ⟨j, hj, _, g⟩; exact absurd (nb2 g) (nobad j hj)
    · rw [if_neg hc]
      have hu := h1 (path.length - 1) (by omega)
      obtain ⟨s', hs', hus⟩ := hu
      rw [hs] at hs'; cases hs'
      have hcc : loc = false → ¬ Unfinished ctl s.val := by
        intro hl
        rw [← completeV_iff]
        simpa [hl] using hc
      have hnl : ¬ ((∃ j < path.length, (∀ i < j, GoodLook ctl (look i)) ∧ ∃ c, look j = .found c ∧ ¬ Usable ctl c.val) ∨
          (loc = false ∧ (∀ i < path.length, GoodLook ctl (look i)) ∧ ∃ n, look (path.length - 1) = .found n ∧ Unfinished ctl n.val)) := by
        rintro (⟨j, hj, _, c, g1, g2⟩ | ⟨g1, _, n, g2, g3⟩)
        · exact nobad j hj (nb1 g1 g2)
        · rw [hs] at g2; cases g2; exact hcc g1 g3
      refine ⟨?_, ?_, ?_, ?_⟩
      · intro v
        constructor
        · rintro ⟨i, h, hv⟩; cases h; exact ⟨h1, s, hs, rfl, hcc⟩
        · rintro ⟨_, n, g1, rfl, g2⟩
          rw [hs] at g1; cases g1
          exact ⟨_, rfl, hus.1⟩
      · refine ⟨?_, fun h => absurd h hnl⟩
        rintro ⟨i, h, _⟩; injection h with h _; exact absurd h (hus.1 e)
      · refine ⟨?_, fun h => absurd h hnl⟩
        rintro ⟨e', i, h⟩; injection h with h _; exact absurd h (hus.1 e')
      · constructor
        · rintro ⟨i, h⟩; cases h
        · rintro ⟨j, hj, _, g⟩; exact absurd (nb2 g) (nobad j hj)
  · simp only [Nat.zero_add] at h1 h2
    rcases h2 with ⟨c, g1, g2, i, g3, g4⟩ | ⟨g1, i, g2⟩ | ⟨g1, g2⟩
    · rw [g3]
      have nb := nb1 g1 g2
      refine ⟨?_, ?_, ?_, ?_⟩
      · intro v
        constructor
        · rintro ⟨i, h, hv⟩; cases h; exact absurd rfl (hv e)
        · rintro ⟨h, _⟩; exact absurd (h j hj) nb
      · exact ⟨fun _ => .inl ⟨j, hj, h1, c, g1, g2⟩, fun _ => ⟨i, rfl, g4⟩⟩
      · exact ⟨fun _ => .inl ⟨j, hj, h1, c, g1, g2⟩, fun _ => ⟨e, i, rfl⟩⟩
      · constructor
        · rintro ⟨i, h⟩; cases h
        · rintro ⟨j', hj', k1, k2⟩
          obtain rfl := hbad h1 nb k1 (nb2 k2)
          rw [g1] at k2; cases k2
    · rw [g2]
      have nb := nb2 g1
      have hnl : ¬ ((∃ j < path.length, (∀ i < j, GoodLook ctl (look i)) ∧ ∃ c, look j = .found c ∧ ¬ Usable ctl c.val) ∨
          (loc = false ∧ (∀ i < path.length, GoodLook ctl (look i)) ∧ ∃ n, look (path.length - 1) = .found n ∧ Unfinished ctl n.val)) := by
        rintro (⟨j', hj', k1, c, k2, k3⟩ | ⟨_, k1, _⟩)
        · obtain rfl := hbad h1 nb k1 (nb1 k2 k3)
          rw [g1] at k2; cases k2
        · exact nb (k1 j hj)
      refine ⟨?_, ?_, ?_, ?_⟩
      · intro v
        constructor
        · rintro ⟨i, h, hv⟩; cases h
        · rintro ⟨h, _⟩; exact absurd (h j hj) nb
      · refine ⟨?_, fun h => absurd h hnl⟩
        rintro ⟨i, h, _⟩; cases h
      · refine ⟨?_, fun h => absurd h hnl⟩
        rintro ⟨e', i, h⟩; cases h
      · exact ⟨fun _ => ⟨j, hj, h1, g1⟩, fun _ => ⟨i, rfl⟩⟩
    · rw [g2]
      have nb := nb3 g1
      have hnl : ¬ ((∃ j < path.length, (∀ i < j, GoodLook ctl (look i)) ∧ ∃ c, look j = .found c ∧ ¬ Usable ctl c.val) ∨
          (loc = false ∧ (∀ i < path.length, GoodLook ctl (look i)) ∧ ∃ n, look (path.length - 1) = .found n ∧ Unfinished ctl n.val)) := by
        rintro (⟨j', hj', k1, c, k2, k3⟩ | ⟨_, k1, _⟩)
        · obtain rfl := hbad h1 nb k1 (nb1 k2 k3)
          rw [g1] at k2; cases k2
        · exact nb (k1 j hj)
      refine ⟨?_, ?_, ?_, ?_⟩
      · intro v
        constructor
        · rintro ⟨i, h, hv⟩; cases h
        · rintro ⟨h, _⟩; exact absurd (h j hj) nb
      · refine ⟨?_, fun h => absurd h hnl⟩
        rintro ⟨i, h, _⟩; cases h
      · refine ⟨?_, fun h => absurd h hnl⟩
        rintro ⟨e', i, h⟩; cases h
      · constructor
        · rintro ⟨i, h⟩; cases h
        · rintro ⟨j', hj', k1, k2⟩
          obtain rfl := hbad h1 nb k1 (nb2 k2)
          rw [g1] at k2; cases k2
end

theorem designates_look (b : Bind) (path : List String) (i : Nat) (hi : i < path.length) (r : Look (Node Ex)) :
    Designates b (path.take (i + 1)) r ↔ refLook b path i = r := by
  cases path with
  | nil => simp at hi
  | cons a p =>
    unfold Designates refLook
    by_cases ha : a = ""
    · subst ha; simp
    · simp [ha]

/-- **C65** (references): a reference `a.b.c` yields `v` iff every prefix of the path designates a usable node, the path itself one with value
`v` (which must be finished, unless evaluated as root of a selection); it is left as it is iff the first prefix that does not designate a usable
node designates one that is still to be determined, or if the value found is not finished; it fails iff the first prefix that does not designate a
usable node designates nothing. -/
theorem reference_spec (X : EvLib) (path : List String) (hp : path ≠ []) (b : Bind) (loc : Bool) :
    (∀ v, (eval X (Ex.ref path) b loc).Value v ↔ PathValue X.ctl (Designates b) path (!loc) v) ∧
    ((eval X (Ex.ref path) b loc).LeftAs (Ex.ref path) ↔ PathLater X.ctl (Designates b) path (!loc)) ∧
    ((eval X (Ex.ref path) b loc).Left ↔ PathLater X.ctl (Designates b) path (!loc)) ∧
    ((eval X (Ex.ref path) b loc).Fails ↔ PathMissing X.ctl (Designates b) path) := by
  rw [eval_ref]
  exact refFind_cases (designates_look b path) (Ex.ref path) hp loc

end Spiff
