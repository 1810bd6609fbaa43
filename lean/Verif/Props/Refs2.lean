import Verif.Props.Refs
import Verif.Props.Tags
/-
C65: the values of references `a.b.c`, `(e).b.c` and `e.[i]`.
-/
namespace Spiff
open Spec

/-- lists have less than 2^63 entries -/
def SmallLists (ctl : Bool) (root : Node Ex) : Prop := ∀ p n l, Reaches ctl false root p n → n.val = .list l → l.length < 2^63

theorem within_findR (ctl : Bool) (root : Node Ex) (hl : SmallLists ctl root) (p : List String) (r : Look (Node Ex)) :
    Within ctl root p r ↔ findR ctl false root p = r := by
  have hoob : OutOfBounds ctl root p ↔ findR ctl false root p = .panic := by
    rw [find_panics_iff ctl false root p hl]
    constructor
    · rintro ⟨p', s, q, n, l, i, h1, h2, h3, h4, h5, h6⟩
      exact ⟨p', s, q, n, h1, h2, l, i, h3, .inr h4, h5, h6⟩
    · rintro ⟨p', s, q, n, h1, h2, l, i, h3, h4, h5, h6⟩
      rcases h4 with h4 | h4
      · cases h4
      · exact ⟨p', s, q, n, l, i, h1, h2, h3, h4, h5, h6⟩
  cases r with
  | found c => exact (find_iff_reaches ..).symm
  | panic => exact hoob
  | missing =>
    simp only [Within, hoob, ← find_iff_reaches]
    cases findR ctl false root p <;> simp

theorem within_look (ctl : Bool) (root : Node Ex) (hl : SmallLists ctl root) (path : List String) (i : Nat) (_ : i < path.length)
    (r : Look (Node Ex)) : Within ctl root (path.take (i + 1)) r ↔ findR ctl false root (path.take (i + 1)) = r := within_findR ctl root hl _ r

theorem complete_usable {ctl : Bool} {v : Val Ex} (h : ¬ Unfinished ctl v) : Usable ctl v :=
  (localReady_iff ..).1 (localReady_of_complete ((completeV_iff ..).2 h))

/-- **C65** (selection): for an expression `e` with value `r`, `(e).a.b` follows the path in `r`: it yields the value at the end of the path, is
left if a node on the way is still to be determined, and fails if there is no such node. If `r` itself is not finished (and the expression is not
evaluated as root of a selection) it is left as it is. -/
theorem qualified_spec (X : EvLib) (e : Ex) (path : List String) (hp : path ≠ []) (b : Bind) (loc : Bool) (r : Val Ex) (i : Info)
    (he : eval X e b loc = .val r i) (hu : Usable X.ctl r) (hl : SmallLists X.ctl (Node.new r "dynaml")) :
    (loc = false → i.raw = false → Unfinished X.ctl r → ∃ j, eval X (.node (.qual path) [e]) b loc = .val (.expr (.node (.qual path) [e])) j) ∧
    (loc = true ∨ i.raw = true ∨ ¬ Unfinished X.ctl r →
      (∀ v, (eval X (.node (.qual path) [e]) b loc).Value v ↔ PathValue X.ctl (Within X.ctl (Node.new r "dynaml")) path (!(loc || i.raw)) v) ∧
      ((eval X (.node (.qual path) [e]) b loc).Left ↔ PathLater X.ctl (Within X.ctl (Node.new r "dynaml")) path (!(loc || i.raw))) ∧
      ((eval X (.node (.qual path) [e]) b loc).Fails ↔ PathMissing X.ctl (Within X.ctl (Node.new r "dynaml")) path)) := by
  have hev : eval X (.node (.qual path) [e]) b loc = qualEv X (.node (.qual path) [e]) path (.val r i) loc := by
    simp only [eval, evalL, sem, he]
  rw [hev]
  have hr := (localReady_iff ..).2 hu
  simp only [qualEv, hr, Bool.not_true, Bool.false_eq_true, if_false]
  constructor
  · intro h1 h2 h3
    have : completeV X.ctl r = false := by
      rw [← Bool.not_eq_true, completeV_iff]; exact fun h => h h3
    exact ⟨i, by simp [h1, h2, this]⟩
  · intro h
    have hc : (!(loc || i.raw) && !completeV X.ctl r) = false := by
      cases loc with
      | true => simp
      | false =>
        cases hi : i.raw with
        | true => simp
        | false =>
          have : ¬ Unfinished X.ctl r := by
            rcases h with h | h | h
            · cases h
            · rw [hi] at h; cases h
            · exact h
          simp [(completeV_iff ..).2 this]
    rw [hc]
    simp only [Bool.false_eq_true, if_false]
    have := refFind_cases (within_look X.ctl (Node.new r "dynaml") hl path) (Ex.ref path) hp (ctl := X.ctl) (loc || i.raw)
    exact ⟨this.1, this.2.2.1, this.2.2.2⟩

theorem mapM_path (f : Node Ex → Option String)
    (hf : ∀ n c, f n = some c ↔ n.val = .str c ∨ ∃ k : Int, n.val = .int k ∧ c = "[" ++ toString k ++ "]") (l : List (Node Ex)) (p : List String) :
    l.mapM f = some p ↔
      List.Forall₂ (fun (n : Node Ex) c => n.val = .str c ∨ ∃ k : Int, n.val = .int k ∧ c = "[" ++ toString k ++ "]") l p := by
  induction l generalizing p with
  | nil => cases p <;> simp
  | cons n r ih =>
    rw [List.mapM_cons]
    cases p with
    | nil => simp [Option.bind_eq_some_iff]
    | cons q p =>
      simp only [Option.bind_eq_bind, Option.pure_def, Option.bind_eq_some_iff, Option.some.injEq, List.cons.injEq, List.forall₂_cons]
      constructor
      · rintro ⟨s, hs, t, ht, rfl, rfl⟩
        exact ⟨(hf n s).1 hs, (ih t).1 ht⟩
      · rintro ⟨h1, h2⟩
        exact ⟨q, (hf n q).2 h1, p, (ih p).2 h2, rfl, rfl⟩

/-- the second part of the determination of the path -/
theorem dynPath_other (r ix : Val Ex) (h : ∀ n, ix ≠ .list [n]) (p : List String) : dynPath r ix = some p ↔
    (∃ k l, ix = .int k ∧ r = .list l ∧ p = ["[" ++ toString k ++ "]"]) ∨ (∃ s, ix = .str s ∧ p = [s]) ∨
    (∃ ns, ix = .list ns ∧ ns ≠ [] ∧
      List.Forall₂ (fun (n : Node Ex) c => n.val = .str c ∨ ∃ k : Int, n.val = .int k ∧ c = "[" ++ toString k ++ "]") ns p) := by
  cases ix with
  | int k =>
    cases r <;> simp [dynPath, eq_comm]
  | str s => simp [dynPath, eq_comm]
  | list l =>
    have hd : dynPath r (.list l) = if l.isEmpty then none else l.mapM (fun n => match n.val with
      | .int k => some ("[" ++ toString k ++ "]")
      | .str s => some s
      | _ => none) := by
      match l, h with
      | [], _ => rfl
      | [n], h => exact absurd rfl (h n)
      | a :: c :: t, _ => rfl
    rw [hd]
    have hm := mapM_path (fun n => match n.val with
      | .int k => some ("[" ++ toString k ++ "]")
      | .str s => some s
      | _ => none) (by intro n c; cases n.val <;> simp [eq_comm]) l p
    cases l with
    | nil => simp
    | cons a t =>
      simp only [List.isEmpty_cons, Bool.false_eq_true, if_false, hm]
      simp
  | _ => simp [dynPath]

theorem dynPath_iff (r ix : Val Ex) (p : List String) (hs : ∀ n l, ix = .list [n] → n.val ≠ .list l) : dynPath r ix = some p ↔ IndexPath r ix p := by
  have hother : ∀ ix, (∀ n, ix ≠ .list [n]) → (dynPath r ix = some p ↔ IndexPath r ix p) := by
    intro ix h
    rw [dynPath_other r ix h p]
    constructor
    · rintro (⟨k, l, rfl, rfl, rfl⟩ | ⟨s, rfl, rfl⟩ | ⟨ns, rfl, h1, h2⟩)
      · exact .int l k
      · exact .str r s
      · refine .path r ns p ?_ h1 h2
        intro hl
        obtain ⟨n, rfl⟩ := List.length_eq_one_iff.1 hl
        exact h n rfl
    · intro hi
      cases hi with
      | int l k => exact .inl ⟨k, l, rfl, rfl, rfl⟩
      | str _ s => exact .inr (.inl ⟨s, rfl, rfl⟩)
      | single _ n _ _ _ => exact absurd rfl (h n)
      | path _ ns _ h1 h2 h3 => exact .inr (.inr ⟨ns, rfl, h2, h3⟩)
  by_cases hn : ∃ n, ix = .list [n]
  · obtain ⟨n, rfl⟩ := hn
    have hnl : ∀ l, n.val ≠ .list l := fun l => hs n l rfl
    have h1 : dynPath r (.list [n]) = dynPath r n.val := by
      cases hv : n.val with
      | list l => exact absurd hv (hnl l)
      | _ => simp [dynPath, hv]
    rw [h1, hother n.val (fun m h => hnl _ h)]
    constructor
    · intro h; exact .single r n p h hnl
    · intro h
      cases h with
      | single _ _ _ h _ => exact h
      | path _ _ _ h => simp at h
  · exact hother ix (fun n h => hn ⟨n, h⟩)

/-- the last step: the value found must be finished -/
def dynEnd (ctl : Bool) (e : Ex) : Ev → Ev
  | .crash => .crash
  | .fail j => .fail j
  | .val v j => if completeV ctl v then .val v j else .val (.expr e) j

/-- **C65** (dynamic selection): for an expression `e` with value `r` and an index with the value `x`, `e.[index]` follows the path denoted by `x`
in `r`: it yields the value at the end of the path, if it is finished; it is left as it is if this value or a node on the way is still to be
determined; it fails if there is no such node, or if `x` does not denote a path. -/
theorem dynamic_spec (X : EvLib) (e x : Ex) (b : Bind) (loc : Bool) (r v : Val Ex) (i j : Info)
    (he : eval X e b (loc || e.isRef) = .val r i) (hu : Usable X.ctl r)
    (hx : eval X x b (loc || i.raw) = .val v j) (hv : ¬ Unfinished X.ctl v) (hs : ∀ n l, v = .list [n] → n.val ≠ .list l)
    (hl : SmallLists X.ctl (Node.new r "dynaml")) :
    (∀ p, IndexPath r v p →
      (∀ w, (eval X (.node .dyn [e, x]) b loc).Value w ↔ PathValue X.ctl (Within X.ctl (Node.new r "dynaml")) p true w) ∧
      ((∃ k, eval X (.node .dyn [e, x]) b loc = .val (.expr (.node .dyn [e, x])) k) ↔ PathLater X.ctl (Within X.ctl (Node.new r "dynaml")) p true) ∧
      ((eval X (.node .dyn [e, x]) b loc).Fails ↔ PathMissing X.ctl (Within X.ctl (Node.new r "dynaml")) p)) ∧
    ((∀ p, ¬ IndexPath r v p) → (eval X (.node .dyn [e, x]) b loc).Fails) := by
  have hev : eval X (.node .dyn [e, x]) b loc = dynEv X (.node .dyn [e, x]) (.val r i) (fun l => eval X x b l) loc := by
    rw [← he]
    obtain ⟨op, l⟩ := e
    cases op <;> rfl
  rw [hev]
  have hr := (localReady_iff ..).2 hu
  have hc := (completeV_iff ..).2 hv
  simp only [dynEv, hr, Bool.not_true, Bool.false_eq_true, if_false, hx, hc]
  constructor
  · intro p hp
    have hne : p ≠ [] := by
      rintro rfl
      have : ∀ {r ix p}, IndexPath r ix p → p ≠ [] := by
        intro r ix p h
        induction h with
        | int => simp
        | str => simp
        | single _ _ _ _ _ ih => exact ih
        | path _ ns p _ h1 h2 =>
          rintro rfl
          cases h2
          exact h1 rfl
      exact this hp rfl
    rw [(dynPath_iff r v p hs).2 hp]
    have hend : ∀ o, (match o with
        | Ev.crash => Ev.crash
        | Ev.fail j => Ev.fail j
        | Ev.val v j => if completeV X.ctl v = true then Ev.val v j else Ev.val (Val.expr (Ex.node Op.dyn [e, x])) j) =
        dynEnd X.ctl (.node .dyn [e, x]) o := by intro o; cases o <;> rfl
    simp only [hend]
    obtain ⟨g1, g2, g3, g4⟩ := refFind_cases (within_look X.ctl (Node.new r "dynaml") hl p) (Ex.ref p) hne (ctl := X.ctl) true
    generalize refFind X.ctl (Ex.ref p) p.length (fun k => findR X.ctl false (Node.new r "dynaml") (List.take (k + 1) p)) true = o at g1 g2 g3 g4 ⊢
    generalize Within X.ctl (Node.new r "dynaml") = D at g1 g2 g3 g4 ⊢
    have hpv : ∀ w, PathValue X.ctl D p true w ↔ o.Value w ∧ ¬ Unfinished X.ctl w := by
      intro w
      rw [g1]
      unfold PathValue
      constructor
      · rintro ⟨h1, n, h2, h3, h4⟩; exact ⟨⟨h1, n, h2, h3, by simp⟩, h4 rfl⟩
      · rintro ⟨⟨h1, n, h2, h3, _⟩, h4⟩; exact ⟨h1, n, h2, h3, fun _ => h4⟩
    have hpl : PathLater X.ctl D p true ↔ o.Left ∨ ∃ w, o.Value w ∧ Unfinished X.ctl w := by
      rw [g3]
      simp only [g1]
      unfold PathLater PathValue
      constructor
      · rintro (h | ⟨_, h1, n, h2, h3⟩)
        · exact .inl (.inl h)
        · exact .inr ⟨n.val, ⟨h1, n, h2, rfl, by simp⟩, h3⟩
      · rintro ((h | ⟨h, _⟩) | ⟨w, ⟨h1, n, h2, rfl, _⟩, h3⟩)
        · exact .inl h
        · cases h
        · exact .inr ⟨rfl, h1, n, h2, h3⟩
    simp only [hpv, hpl, ← g4]
    have hne' : ∀ ee, completeV X.ctl (.expr ee) = false := fun _ => rfl
    cases o with
    | crash =>
      refine ⟨fun w => ⟨?_, ?_⟩, ⟨?_, ?_⟩, Iff.rfl⟩
      · rintro ⟨k, h, _⟩; cases h
      · rintro ⟨⟨k, h, _⟩, _⟩; cases h
      · rintro ⟨k, h⟩; cases h
      · rintro (⟨ee, k, h⟩ | ⟨w, ⟨k, h, _⟩, _⟩) <;> cases h
    | fail k =>
      refine ⟨fun w => ⟨?_, ?_⟩, ⟨?_, ?_⟩, Iff.rfl⟩
      · rintro ⟨k, h, _⟩; cases h
      · rintro ⟨⟨k, h, _⟩, _⟩; cases h
      · rintro ⟨k, h⟩; cases h
      · rintro (⟨ee, k, h⟩ | ⟨w, ⟨k, h, _⟩, _⟩) <;> cases h
    | val u k =>
      simp only [dynEnd]
      by_cases hcu : completeV X.ctl u = true
      · rw [if_pos hcu]
        have hcu' := (completeV_iff ..).1 hcu
        have hex : ∀ ee, u ≠ .expr ee := by rintro ee rfl; cases hcu
        refine ⟨fun w => ⟨?_, fun h => h.1⟩, ⟨?_, ?_⟩, ⟨?_, ?_⟩⟩
        · rintro ⟨k', h, hw⟩; cases h; exact ⟨⟨k, rfl, hex⟩, hcu'⟩
        · rintro ⟨k', h⟩; injection h with h _; exact absurd h (hex _)
        · rintro (⟨ee, k', h⟩ | ⟨w, ⟨k', h, _⟩, hw⟩)
          · injection h with h _; exact absurd h (hex _)
          · cases h; exact absurd hw hcu'
        · rintro ⟨k', h⟩; cases h
        · rintro ⟨k', h⟩; cases h
      · rw [if_neg hcu]
        have hcu' : Unfinished X.ctl u := by
          by_contra h; exact hcu ((completeV_iff ..).2 h)
        refine ⟨fun w => ⟨?_, ?_⟩, ⟨fun _ => ?_, fun _ => ⟨k, rfl⟩⟩, ⟨?_, ?_⟩⟩
        · rintro ⟨k', h, hw⟩; cases h; exact absurd rfl (hw _)
        · rintro ⟨⟨k', h, _⟩, hw⟩; cases h; exact absurd hcu' hw
        · by_cases hex : ∃ ee, u = .expr ee
          · obtain ⟨ee, rfl⟩ := hex; exact .inl ⟨ee, k, rfl⟩
          · exact .inr ⟨u, ⟨k, rfl, fun ee h => hex ⟨ee, h⟩⟩, hcu'⟩
        · rintro ⟨k', h⟩; cases h
        · rintro ⟨k', h⟩; cases h
  · intro hp
    have : dynPath r v = none := by
      cases hd : dynPath r v with
      | none => rfl
      | some p => exact absurd ((dynPath_iff r v p hs).1 hd) (hp p)
    rw [this]
    exact ⟨_, rfl⟩

theorem prefix_single {α : Type} {q : List α} {a : α} (h : q <+: [a]) (hq : q ≠ []) : q = [a] := by
  cases q with
  | nil => exact absurd rfl hq
  | cons b t =>
    rw [List.cons_prefix_cons] at h
    obtain ⟨rfl, h⟩ := h
    rw [List.prefix_nil.1 h]

theorem pathValue_single {ctl : Bool} {D : List String → Look (Node Ex) → Prop} {s : String} {v : Val Ex} :
    (∃ n, D [s] (.found n) ∧ n.val = v ∧ ¬ Unfinished ctl v) → PathValue ctl D [s] true v := by
  rintro ⟨n, h1, rfl, h2⟩
  refine ⟨?_, n, h1, rfl, fun _ => h2⟩
  intro q hq hp _
  rw [prefix_single hp hq]
  exact ⟨n, h1, complete_usable h2⟩

theorem wayOpen_single {ctl : Bool} {D : List String → Look (Node Ex) → Prop} {s : String} : WayOpen ctl D [s] true := by
  intro q hq hp h
  exact absurd (prefix_single hp hq) (h rfl)

theorem pathLater_single {ctl : Bool} {D : List String → Look (Node Ex) → Prop} {s : String} {n : Node Ex} (h1 : D [s] (.found n))
    (h2 : Unfinished ctl n.val) : PathLater ctl D [s] true := by
  by_cases hu : Usable ctl n.val
  · right
    refine ⟨rfl, ?_, n, h1, h2⟩
    intro q hq hp _
    rw [prefix_single hp hq]
    exact ⟨n, h1, hu⟩
  · left
    exact ⟨[s], n, by simp, List.prefix_refl _, wayOpen_single, h1, hu⟩

theorem pathMissing_single {ctl : Bool} {D : List String → Look (Node Ex) → Prop} {s : String} (h1 : D [s] .missing) : PathMissing ctl D [s] :=
  ⟨[s], by simp, List.prefix_refl _, wayOpen_single, h1⟩

theorem indexStep_toString (k : Int) : IndexStep ("[" ++ toString k ++ "]") k := by
  have h : ("[" ++ toString k ++ "]").toList = '[' :: ((toString k).toList ++ [']']) := by
    simp [String.toList_append]
  by_cases hk : 0 ≤ k
  · refine ⟨Nat.toDigits 10 k.toNat, k.toNat, (decimal_iff ..).2 ⟨isDigits_toDigits _, digitsVal_toDigits _⟩, .inl ⟨?_, by omega⟩⟩
    rw [h, toString_int, if_pos hk]; rfl
  · refine ⟨Nat.toDigits 10 k.natAbs, k.natAbs, (decimal_iff ..).2 ⟨isDigits_toDigits _, digitsVal_toDigits _⟩, .inr ⟨?_, by omega⟩⟩
    rw [h, toString_int, if_neg hk]; rfl

/-- **C65** (list entries): `e.[k]` for a list selects the entry with index `k`, a negative index counts from the end. It yields the entry if it is
finished, it is left if it is not, it fails if the index is too large. -/
theorem dynamic_index (X : EvLib) (e x : Ex) (b : Bind) (loc : Bool) (l : List (Node Ex)) (k : Int) (i j : Info)
    (he : eval X e b (loc || e.isRef) = .val (.list l) i) (hu : AddressableL l) (hx : eval X x b (loc || i.raw) = .val (.int k) j)
    (hk : -(2^63) ≤ k ∧ k < 2^63) (hl : SmallLists X.ctl (Node.new (.list l) "dynaml")) :
    (∀ (c : Node Ex) (m : Nat), (m : Int) = (if k < 0 then l.length + k else k) → l[m]? = some c →
      (¬ Unfinished X.ctl c.val → (eval X (.node .dyn [e, x]) b loc).Value c.val) ∧
      (Unfinished X.ctl c.val → ∃ o, eval X (.node .dyn [e, x]) b loc = .val (.expr (.node .dyn [e, x])) o)) ∧
    ((l.length : Int) ≤ k → (eval X (.node .dyn [e, x]) b loc).Fails) := by
  have husable : Usable X.ctl (.list l) := ⟨by simp, by simp, by rintro l' h; cases h; exact hu⟩
  obtain ⟨h1, h2, h3⟩ := (dynamic_spec X e x b loc (.list l) (.int k) i j he husable hx (by intro h; cases h) (by simp) hl).1 _ (.int l k)
  constructor
  · intro c m hm hc
    have hsel : Within X.ctl (Node.new (.list l) "dynaml") ["[" ++ toString k ++ "]"] (.found c) :=
      .step _ c _ _ _ (.index _ c l _ k m rfl (.inr hu) (indexStep_toString k) hk hm hc) (.here c)
    constructor
    · intro hf
      exact (h1 c.val).2 (pathValue_single ⟨c, hsel, rfl, hf⟩)
    · intro hf
      exact h2.2 (pathLater_single hsel hf)
  · intro hlen
    apply h3.2
    apply pathMissing_single
    rw [within_findR _ _ hl]
    have hi := (listIndex_iff _ _).2 (indexStep_toString k)
    have hres : isListResolved l = true := (isListResolved_iff l).2 hu
    have hn : ¬ k < 0 := by omega
    have hg : l[k.toNat]? = none := List.getElem?_eq_none (by omega)
    have hr : (decide (k < -(2^63)) || decide (k ≥ 2^63)) = false := by
      simp only [Bool.or_eq_false_iff, decide_eq_false_iff_not]; omega
    have hstep : nextStep X.ctl false ("[" ++ toString k ++ "]") (Node.new (.list l) "dynaml") = .missing := by
      simp only [nextStep, Node.val_new, hres, Bool.not_true, Bool.and_false, Bool.false_eq_true, if_false, stepList, hi, indexList, hr, hn, hg]
    simp only [findR, hstep]

/-- **C65** (fields): `e.[name]` for a map selects the field with the given name. -/
theorem dynamic_field (X : EvLib) (e x : Ex) (b : Bind) (loc : Bool) (m : List (String × Node Ex)) (s : String) (i j : Info)
    (he : eval X e b (loc || e.isRef) = .val (.map m) i) (hu : Addressable X.ctl m) (hx : eval X x b (loc || i.raw) = .val (.str s) j)
    (hs : strDynaml s = false) (hl : SmallLists X.ctl (Node.new (.map m) "dynaml")) :
    (∀ c, mget m s = some c → (¬ Unfinished X.ctl c.val → (eval X (.node .dyn [e, x]) b loc).Value c.val) ∧
      (Unfinished X.ctl c.val → ∃ o, eval X (.node .dyn [e, x]) b loc = .val (.expr (.node .dyn [e, x])) o)) ∧
    (mget m s = none → (eval X (.node .dyn [e, x]) b loc).Fails) := by
  have husable : Usable X.ctl (.map m) := ⟨by simp, by rintro l' h; cases h; exact hu, by simp⟩
  obtain ⟨h1, h2, h3⟩ := (dynamic_spec X e x b loc (.map m) (.str s) i j he husable hx (by intro h; cases h; rename_i h; rw [hs] at h; cases h)
    (by simp) hl).1 _ (.str _ s)
  constructor
  · intro c hc
    have hsel : Within X.ctl (Node.new (.map m) "dynaml") [s] (.found c) :=
      .step _ c _ _ _ (.field _ c m _ rfl (.inr hu) hc) (.here c)
    exact ⟨fun hf => (h1 c.val).2 (pathValue_single ⟨c, hsel, rfl, hf⟩), fun hf => h2.2 (pathLater_single hsel hf)⟩
  · intro hc
    apply h3.2
    apply pathMissing_single
    rw [within_findR _ _ hl]
    have hres : isMapResolved X.ctl m = true := (isMapResolved_iff ..).2 hu
    simp [findR, nextStep, Node.val_new, stepMap, hres, hc]

/-- **C65** (dynamic selection): what happens if the root or the index has no value -/
theorem dynamic_other (X : EvLib) (e x : Ex) (b : Bind) (loc : Bool) :
    ((eval X e b (loc || e.isRef)).Fails → (eval X (.node .dyn [e, x]) b loc).Fails) ∧
    (∀ r i, eval X e b (loc || e.isRef) = .val r i → ¬ Usable X.ctl r → eval X (.node .dyn [e, x]) b loc = .val (.expr (.node .dyn [e, x])) i) ∧
    (∀ r i, eval X e b (loc || e.isRef) = .val r i → Usable X.ctl r → (eval X x b (loc || i.raw)).Fails → (eval X (.node .dyn [e, x]) b loc).Fails) ∧
    (∀ r i v j, eval X e b (loc || e.isRef) = .val r i → Usable X.ctl r → eval X x b (loc || i.raw) = .val v j → Unfinished X.ctl v →
      eval X (.node .dyn [e, x]) b loc = .val (.expr (.node .dyn [e, x])) i) := by
  have hev : eval X (.node .dyn [e, x]) b loc = dynEv X (.node .dyn [e, x]) (eval X e b (loc || e.isRef)) (fun l => eval X x b l) loc := by
    obtain ⟨op, l⟩ := e
    cases op <;> rfl
  rw [hev]
  refine ⟨?_, ?_, ?_, ?_⟩
  · rintro ⟨i, h⟩; rw [h]; exact ⟨i, rfl⟩
  · intro r i h hu
    have : localReady X.ctl r = false := by rw [← Bool.not_eq_true, localReady_iff]; exact hu
    simp [h, dynEv, this]
  · rintro r i h hu ⟨j, hj⟩
    rw [h]
    exact ⟨i, by simp [dynEv, (localReady_iff ..).2 hu, hj]⟩
  · intro r i v j h hu hj hv
    have : completeV X.ctl v = false := by rw [← Bool.not_eq_true, completeV_iff]; exact fun h => h hv
    simp [h, dynEv, (localReady_iff ..).2 hu, hj, this]

/-- the hypotheses are met: `x.[1]`, `x.[-1]`, `x.[a]`, and a reference into a value that is still to be determined -/
theorem selection_example :
    (eval plainEvLib (.node .dyn [Ex.ref ["x"], Ex.lit (.int 1)])
      (exampleBind (.list [Node.new (.int 5) "", Node.new (.int 6) "", Node.new (.int 7) ""])) false).int? = some 6 ∧
    (eval plainEvLib (.node .dyn [Ex.ref ["x"], Ex.lit (.int (-1))])
      (exampleBind (.list [Node.new (.int 5) "", Node.new (.int 6) "", Node.new (.int 7) ""])) false).int? = some 7 ∧
    (eval plainEvLib (.node .dyn [Ex.ref ["x"], Ex.lit (.str "a")]) (exampleBind (.map [("a", Node.new (.int 5) "")])) false).int? = some 5 ∧
    (eval plainEvLib (.node (.qual ["a"]) [Ex.ref ["x"]]) (exampleBind (.map [("a", Node.new (.int 5) "")])) false).int? = some 5 ∧
    (eval plainEvLib (Ex.ref ["x", "a"]) (exampleBind (.expr (Ex.ref ["y"]))) false).isLater = true ∧
    SmallLists false (Node.new (Val.list (E := Ex) [Node.new (.int 5) "", Node.new (.int 6) ""]) "dynaml") := by
  refine ⟨by decide +kernel, by decide +kernel, by decide +kernel, by decide +kernel, by decide +kernel, ?_⟩
  intro p n l h hn
  cases h with
  | here => cases hn; simp
  | step _ c _ s q hs hr =>
    have hc : ∃ k, c.val = .int k := by
      cases hs with
      | field _ m _ hv => cases hv
      | index _ l' _ i j hv _ _ _ _ hc =>
        cases hv
        match j, hc with
        | 0, hc => cases hc; exact ⟨_, rfl⟩
        | 1, hc => cases hc; exact ⟨_, rfl⟩
        | j + 2, hc => simp at hc
      | named _ l' bf af _ key nm hv _ _ _ hl _ hc =>
        obtain ⟨m, v, hm, _⟩ := hc
        cases hv
        have : c ∈ [Node.new (Val.int 5) "", Node.new (.int 6) ""] := by rw [hl]; simp
        simp at this
        rcases this with rfl | rfl <;> cases hm
    obtain ⟨k, hk⟩ := hc
    cases hr with
    | here => rw [hk] at hn; cases hn
    | step _ c' _ s' q' hs' _ =>
      cases hs' with
      | field _ m _ hv => rw [hk] at hv; cases hv
      | index _ l' _ i j hv => rw [hk] at hv; cases hv
      | named _ l' bf af _ key nm hv => rw [hk] at hv; cases hv

end Spiff
