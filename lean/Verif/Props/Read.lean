import Verif.Spec.Read
import Verif.Spec.FileFns
import Verif.Lemmas.Agree
import Verif.Lemmas.Maps
import Verif.Props.FileFns2
/-
C80: reading documents.
-/
namespace Spiff
open Spiff.Spec
variable {E : Type}

theorem sameData_refl (n : Node E) : SameData n n := by
  intro p
  cases locate n p with
  | none => trivial
  | some x => exact .inr (.inr rfl)

theorem mget_mapCopy (m : List (String × Node E)) (k : String) : mget (mapCopy m) k = (mget m k).map nodeCopy := by
  induction m with
  | nil => rw [mapCopy.eq_1]; rfl
  | cons e r ih =>
    obtain ⟨j, n⟩ := e
    rw [mapCopy.eq_2, entryCopy.eq_1]
    by_cases h : j = k
    · subst h; simp [mget]
    · simpa [mget, h] using ih

theorem listCopy_eq (l : List (Node E)) : listCopy l = l.map nodeCopy := by
  induction l with
  | nil => rw [listCopy.eq_1]; rfl
  | cons a r ih => rw [listCopy.eq_2, ih]; rfl

theorem sameData_copy (n : Node E) : SameData n (nodeCopy n) := by
  refine Node.rec
    (motive_1 := fun v => ∀ s an, SameData (.mk v s an) (.mk (valCopy v) s {}))
    (motive_2 := fun n => SameData n (nodeCopy n))
    (motive_3 := fun l => ∀ n ∈ l, SameData n (nodeCopy n))
    (motive_4 := fun m => ∀ e ∈ m, SameData e.2 (nodeCopy e.2))
    (motive_5 := fun e => SameData e.2 (nodeCopy e.2))
    ?_ ?_ ?_ ?_ ?_ ?_ ?_ ?_ ?_ ?_ ?_ ?_ ?_ ?_ ?_ ?_ n
  case refine_6 =>
    intro l ih s an
    refine agree_step.2 ⟨.inl ⟨l, listCopy l, rfl, by rw [valCopy.eq_1]; rfl⟩, fun i => ?_⟩
    rw [valCopy.eq_1, listCopy_eq]
    cases i with
    | idx i =>
      simp only [Node.val, child, List.getElem?_map]
      cases h : l[i]? with
      | none => trivial
      | some x => exact ih x (List.mem_of_getElem? h)
    | key => trivial
    | body => trivial
  case refine_7 =>
    intro m ih s an
    refine agree_step.2 ⟨.inr (.inl ⟨m, mapCopy m, rfl, by rw [valCopy.eq_2]; rfl⟩), fun i => ?_⟩
    rw [valCopy.eq_2]
    cases i with
    | key k =>
      simp only [Node.val, child, mget_mapCopy]
      cases h : mget m k with
      | none => trivial
      | some x => exact ih (k, x) (mget_some_mem h)
    | idx => trivial
    | body => trivial
  case refine_11 => intro v s an ih; rw [nodeCopy.eq_1]; exact ih s an
  case refine_12 => intro n h; cases h
  case refine_13 =>
    intro n r h1 h2 x hx
    rcases List.mem_cons.1 hx with rfl | hx
    · exact h1
    · exact h2 x hx
  case refine_14 => intro n h; cases h
  case refine_15 =>
    intro n r h1 h2 x hx
    rcases List.mem_cons.1 hx with rfl | hx
    · exact h1
    · exact h2 x hx
  case refine_16 => intro k n h; exact h
  all_goals
    intros
    refine agree_step.2 ⟨.inr (.inr (by simp only [Node.val]; rfl)), fun i => ?_⟩
    first
    | (cases i <;> exact trivial)
    | (cases i with
       | body => exact sameData_refl _
       | _ => exact trivial)

theorem templPattern_iff (s : List Char) : templPattern s = true ↔ MarkerText s := by
  induction s with
  | nil =>
    simp only [templPattern, Bool.false_eq_true, false_iff]
    rintro ⟨a, b, c, h, _⟩
    have := congrArg List.length h
    simp at this
  | cons d r ih =>
    simp only [templPattern, Bool.or_eq_true, Bool.and_eq_true, beq_iff_eq, ih, List.isPrefixOf_iff_prefix]
    constructor
    · rintro (⟨h1, b, rfl⟩ | ⟨a, b, c, rfl, hc⟩)
      · refine ⟨[], b, d, rfl, ?_⟩
        simp only [List.mem_cons, List.not_mem_nil, or_false]
        rcases h1 with (((h | h) | h) | h) | h <;> simp [h]
      · exact ⟨d :: a, b, c, rfl, hc⟩
    · rintro ⟨a, b, c, h, hc⟩
      cases a with
      | nil =>
        injection h with h1 h2
        subst h1
        left
        refine ⟨?_, b, h2.symm⟩
        simp only [List.mem_cons, List.not_mem_nil, or_false] at hc
        rcases hc with h | h | h | h | h <;> simp [h]
      | cons x a =>
        injection h with h1 h2
        exact .inr ⟨a, b, c, h2, hc⟩

theorem isMarkerEntry_iff (L : ReadLib E) (e : Node E) : isMarkerEntry L e = true ↔ MarkerEntry L e := by
  unfold isMarkerEntry MarkerEntry
  cases hv : e.val with
  | map m =>
    have hx : ∀ x : Node E, isMarkerNode L x = true ↔
        ∃ t b, x.val = .str t ∧ embeddedDynaml L.quote L.interpol t.toList = some b ∧ MarkerText b := by
      intro x
      unfold isMarkerNode embeddedNode
      cases hs : x.val with
      | str t =>
        dsimp only
        cases he : embeddedDynaml L.quote L.interpol t.toList with
        | none =>
          simp only [Bool.false_eq_true, false_iff]
          rintro ⟨t', b, h1, h2, _⟩; cases h1; rw [he] at h2; cases h2
        | some b =>
          simp only [templPattern_iff]
          constructor
          · intro h; exact ⟨t, b, rfl, he, h⟩
          · rintro ⟨t', b', h1, h2, h3⟩; cases h1; rw [he] at h2; cases h2; exact h3
      | _ => simp
    dsimp only
    unfold MERGEKEY
    cases h1 : mget m "<<<" with
    | some x =>
      dsimp only
      rw [hx]
      constructor
      · rintro ⟨t, b, h⟩; exact ⟨m, x, t, b, rfl, .inl h1, h⟩
      · rintro ⟨m', x', t, b, hm, h, hh⟩
        cases hm
        rcases h with h | ⟨h, _⟩
        · rw [h1] at h; cases h; exact ⟨t, b, hh⟩
        · rw [h1] at h; cases h
    | none =>
      dsimp only
      cases h2 : mget m "<<" with
      | some x =>
        dsimp only
        rw [hx]
        constructor
        · rintro ⟨t, b, h⟩; exact ⟨m, x, t, b, rfl, .inr ⟨h1, h2⟩, h⟩
        · rintro ⟨m', x', t, b, hm, h, hh⟩
          cases hm
          rcases h with h | ⟨_, h⟩
          · rw [h1] at h; cases h
          · rw [h2] at h; cases h; exact ⟨t, b, hh⟩
      | none =>
        simp only [Bool.false_eq_true, false_iff]
        rintro ⟨m', x', t, b, hm, h, hh⟩
        cases hm
        rcases h with h | ⟨_, h⟩
        · rw [h1] at h; cases h
        · rw [h2] at h; cases h
  | _ => simp

theorem val_copy (n : Node E) : (nodeCopy n).val = valCopy n.val := by
  cases n; rw [nodeCopy.eq_1]; rfl

theorem valCopy_str (v : Val E) (t : String) : valCopy v = .str t ↔ v = .str t := by
  cases v <;> simp [valCopy]

theorem markerEntry_copy (L : ReadLib E) (n : Node E) : MarkerEntry L (nodeCopy n) ↔ MarkerEntry L n := by
  unfold MarkerEntry
  constructor
  · rintro ⟨m, x, t, b, hm, hx, ht, hb, hh⟩
    rw [val_copy] at hm
    cases hv : n.val with
    | map m' =>
      rw [hv, valCopy.eq_2] at hm
      cases hm
      rw [mget_mapCopy, mget_mapCopy] at hx
      have : ∃ y, (mget m' "<<<" = some y ∨ mget m' "<<<" = none ∧ mget m' "<<" = some y) ∧ nodeCopy y = x := by
        rcases hx with hx | ⟨h1, hx⟩
        · obtain ⟨y, hy, rfl⟩ := Option.map_eq_some_iff.1 hx
          exact ⟨y, .inl hy, rfl⟩
        · obtain ⟨y, hy, rfl⟩ := Option.map_eq_some_iff.1 hx
          exact ⟨y, .inr ⟨Option.map_eq_none_iff.1 h1, hy⟩, rfl⟩
      obtain ⟨y, hy, rfl⟩ := this
      rw [val_copy, valCopy_str] at ht
      exact ⟨m', y, t, b, rfl, hy, ht, hb, hh⟩
    | _ => rw [hv] at hm; simp [valCopy] at hm
  · rintro ⟨m, x, t, b, hm, hx, ht, hb, hh⟩
    refine ⟨mapCopy m, nodeCopy x, t, b, by rw [val_copy, hm, valCopy.eq_2], ?_, by rw [val_copy, valCopy_str]; exact ht, hb, hh⟩
    rw [mget_mapCopy, mget_mapCopy]
    rcases hx with hx | ⟨h1, hx⟩
    · left; rw [hx]; rfl
    · right; rw [h1, hx]; exact ⟨rfl, rfl⟩

theorem forall2_copy (l : List (Node E)) : List.Forall₂ SameData l (l.map nodeCopy) := by
  induction l with
  | nil => exact .nil
  | cons a r ih => exact .cons (sameData_copy a) ih

/-- the document shown for a template has the marker and the content of the template -/
theorem marked_template (L : ReadLib E) (n : Node E) : Marked L n (markTemplate L n) := by
  unfold markTemplate
  cases hv : n.val with
  | map m =>
    rw [val_copy, hv, valCopy.eq_2]
    dsimp only
    have others : ∀ k j, j ≠ k → (mget m j = none ∧ mget (mset (mapCopy m) k (templMarker n.src)) j = none) ∨
        ∃ a b, mget m j = some a ∧ mget (mset (mapCopy m) k (templMarker n.src)) j = some b ∧ SameData a b := by
      intro k j hj
      rw [mget_mset_ne _ _ hj, mget_mapCopy]
      cases h : mget m j with
      | none => exact .inl ⟨rfl, rfl⟩
      | some a => exact .inr ⟨a, _, rfl, rfl, sameData_copy a⟩
    have hnone : ∀ k, (mget (mapCopy m) k).isNone = true ↔ mget m k = none := by
      intro k; rw [mget_mapCopy]; cases mget m k <;> simp
    unfold MERGEKEY
    by_cases h1 : mget m "<<<" = none
    · rw [if_pos ((hnone _).2 h1)]
      exact .map m _ _ (templMarker n.src) "<<<" hv (by rw [Node.val_withVal]) (.inl ⟨h1, rfl⟩) ⟨mget_mset_self _ _ _, rfl⟩ (others _)
    · rw [if_neg (fun h => h1 ((hnone _).1 h))]
      by_cases h2 : mget m "<<" = none
      · rw [if_pos ((hnone _).2 h2)]
        exact .map m _ _ (templMarker n.src) "<<" hv (by rw [Node.val_withVal]) (.inr ⟨h1, h2, rfl⟩) ⟨mget_mset_self _ _ _, rfl⟩ (others _)
      · rw [if_neg (fun h => h2 ((hnone _).1 h))]
        exact .asis _ (fun m' hm => by rw [hv] at hm; cases hm; exact ⟨h1, h2⟩) (fun l hl => by rw [hv] at hl; cases hl) (sameData_copy n)
  | list l =>
    rw [val_copy, hv, valCopy.eq_1, listCopy_eq]
    dsimp only
    by_cases h : (l.map nodeCopy).any (isMarkerEntry L) = true
    · rw [if_pos h]
      refine .asis _ (fun m' hm => by rw [hv] at hm; cases hm) (fun l' hl => ?_) (sameData_copy n)
      rw [hv] at hl; cases hl
      rw [List.any_eq_true] at h
      obtain ⟨x, hx, hm⟩ := h
      obtain ⟨y, hy, rfl⟩ := List.mem_map.1 hx
      exact ⟨y, hy, (markerEntry_copy L y).1 ((isMarkerEntry_iff L _).1 hm)⟩
    · rw [if_neg h]
      refine .list l (l.map nodeCopy) _ _ (templMarker n.src) hv rfl ?_ rfl rfl (forall2_copy l)
      intro y hy hm
      apply h
      rw [List.any_eq_true]
      exact ⟨nodeCopy y, List.mem_map.2 ⟨y, hy, rfl⟩, (isMarkerEntry_iff L _).2 ((markerEntry_copy L y).2 hm)⟩
  | _ =>
    rw [val_copy, hv]
    refine .asis _ (fun m' hm => by rw [hv] at hm; cases hm) (fun l hl => by rw [hv] at hl; cases hl) (sameData_copy n)

theorem dropEmpties_iff (ns ks : List (Node E)) : dropEmpties ns = ks ↔ Trimmed ns ks := by
  have isNil : ∀ n : Node E, isNilDoc n = true ↔ n.val = .nil := by
    intro n; unfold isNilDoc; cases n.val <;> simp
  have sound : Trimmed ns (dropEmpties ns) := by
    cases ns with
    | nil => exact ⟨⟨[], rfl, by simp⟩, fun h => absurd rfl h, by simp [dropEmpties]⟩
    | cons a r =>
      have hde : dropEmpties (a :: r) = a :: (r.reverse.dropWhile isNilDoc).reverse := rfl
      rw [hde]
      have hsplit := List.takeWhile_append_dropWhile (p := isNilDoc) (l := r.reverse)
      generalize ht : r.reverse.takeWhile isNilDoc = t at hsplit
      generalize hd : r.reverse.dropWhile isNilDoc = d at hsplit ⊢
      have hr : r = d.reverse ++ t.reverse := by
        rw [← List.reverse_append, hsplit, List.reverse_reverse]
      refine ⟨⟨t.reverse, by rw [hr]; simp, ?_⟩, by simp, ?_⟩
      · intro n hn
        have hn' := List.mem_reverse.1 hn
        rw [← ht] at hn'
        exact (isNil n).1 (List.mem_takeWhile_imp (p := isNilDoc) hn')
      · intro hlen n hl
        cases d with
        | nil => simp at hlen
        | cons x d =>
          simp only [List.reverse_cons] at hl
          rw [← List.cons_append, List.getLast?_concat] at hl
          cases hl
          intro hnil
          have := List.head?_dropWhile_not isNilDoc r.reverse
          rw [hd] at this
          simp [(isNil n).2 hnil] at this
  constructor
  · rintro rfl; exact sound
  · intro h
    obtain ⟨⟨es, h1, h2⟩, h3, h4⟩ := sound
    obtain ⟨⟨es', h1', h2'⟩, h3', h4'⟩ := h
    generalize dropEmpties ns = js at *
    have aux : ∀ (ks js es es' : List (Node E)), ks ++ es = js ++ es' → (∀ n ∈ es', n.val = .nil) → (∀ n ∈ es, n.val = .nil) →
        (ks ≠ []) → (js ≠ []) → (2 ≤ ks.length → ∀ n, ks.getLast? = some n → n.val ≠ .nil) → (2 ≤ js.length → ∀ n, js.getLast? = some n → n.val ≠ .nil) → ks = js := by
      intro ks js es es' he hes' hes hk hj lk lj
      rcases List.append_eq_append_iff.1 he with ⟨a, rfl, rfl⟩ | ⟨a, rfl, rfl⟩
      · cases a with
        | nil => simp
        | cons b a =>
          exfalso
          obtain ⟨c, hc⟩ : ∃ c, (b :: a).getLast? = some c := ⟨(b :: a).getLast (by simp), List.getLast?_eq_some_getLast _⟩
          have hm : c ∈ b :: a := List.mem_of_getLast? hc
          refine lj ?_ c ?_ (hes c (List.mem_append.2 (.inl hm)))
          · have : 0 < ks.length := List.length_pos_iff.2 hk
            simp; omega
          · rw [List.getLast?_append, hc]; rfl
      · cases a with
        | nil => simp
        | cons b a =>
          exfalso
          obtain ⟨c, hc⟩ : ∃ c, (b :: a).getLast? = some c := ⟨(b :: a).getLast (by simp), List.getLast?_eq_some_getLast _⟩
          have hm : c ∈ b :: a := List.mem_of_getLast? hc
          refine lk ?_ c ?_ (hes' c (List.mem_append.2 (.inl hm)))
          · have : 0 < js.length := List.length_pos_iff.2 hj
            simp; omega
          · rw [List.getLast?_append, hc]; rfl
    by_cases hn : ns = []
    · subst hn
      have e1 := List.append_eq_nil_iff.1 h1.symm
      have e2 := List.append_eq_nil_iff.1 h1'.symm
      rw [e1.1, e2.1]
    · exact aux js ks es es' (by rw [← h1, ← h1']) h2' h2 (h3 hn) (h3' hn) h4 h4'

theorem parseSingle_ok (L : ReadLib E) (file : String) (data : List Nat) (n : Node E) : parseSingle L file data = .ok n ↔ OneDoc L file data n := by
  unfold parseSingle OneDoc
  split <;> simp_all

theorem parseSingle_cases (L : ReadLib E) (file : String) (data : List Nat) :
    (∃ n, parseSingle L file data = .ok n) ∨ (parseSingle L file data = .err ∧ L.docs file data ≠ some []) ∨
      (parseSingle L file data = .panic ∧ L.docs file data = some []) := by
  unfold parseSingle
  split
  · rename_i h; exact .inr (.inl ⟨rfl, by rw [h]; simp⟩)
  · exact .inl ⟨_, rfl⟩
  · rename_i h; exact .inr (.inr ⟨rfl, h⟩)
  · rename_i h1 h2 h; exact .inr (.inl ⟨rfl, by rw [h]; intro e; exact h2 (Option.some.inj e)⟩)

/-! ### the modes -/

theorem parseMode_sound (L : ReadLib E) (file : String) (data : List Nat) (rr : Bool) (mode : String) (r : ReadResult E)
    (h : parseMode L file file data rr mode = .ok r) : ModeResult L file data rr mode r := by
  unfold parseMode at h
  split at h
  · rename_i hm; subst hm
    split at h
    · rename_i n hn; cases h; exact .template n _ ((parseSingle_ok L file data n).1 hn) (marked_template L n)
    all_goals cases h
  split at h
  · rename_i hm; subst hm
    split at h
    · cases h
    · rename_i ns hn; cases h
      refine .templates ns _ hn ?_
      clear hn
      induction ns with
      | nil => exact .nil
      | cons a l ih => exact .cons ⟨rfl, marked_template L a⟩ ih
  split at h
  · rename_i hm; subst hm
    split at h
    · rename_i n hn
      split at h
      · rename_i r hf; cases h; exact .yaml n r ((parseSingle_ok L file data n).1 hn) hf
      · cases h
    all_goals cases h
  split at h
  · rename_i hm; subst hm
    split at h
    · cases h
    · rename_i ns hn
      split at h
      · rename_i r hf; cases h; exact .multiyaml ns _ _ r hn ((dropEmpties_iff ns _).1 rfl) rfl hf
      · cases h
  split at h
  · rename_i hm; subst hm
    split at h
    · rename_i n hn; cases h; exact .«import» n ((parseSingle_ok L file data n).1 hn)
    all_goals cases h
  split at h
  · rename_i hm; subst hm
    split at h
    · cases h
    · rename_i ns hn; cases h; exact .importmulti ns _ hn ((dropEmpties_iff ns _).1 rfl)
  split at h
  · rename_i hm; subst hm; cases h; exact .text
  split at h
  · rename_i hm; subst hm; cases h; exact .binary
  · cases h

/-- the result given by the model for a described result: the same up to the texts shown for templates -/
def SameRead : ReadResult E → ReadResult E → Prop
  | .value v a, .value w b => v = w ∧ a = b
  | .template p _, .template q _ => p = q
  | .templates l, .templates k => l.map (·.1) = k.map (·.1)
  | _, _ => False

theorem parseMode_complete (L : ReadLib E) (file : String) (data : List Nat) (rr : Bool) (mode : String) (r : ReadResult E)
    (h : ModeResult L file data rr mode r) : ∃ r', parseMode L file file data rr mode = .ok r' ∧ SameRead r r' := by
  cases h with
  | template n o h hm =>
    refine ⟨.template n (markTemplate L n), ?_, rfl⟩
    simp only [parseMode, if_true, (parseSingle_ok L file data n).2 h]
  | templates ns ts h hm =>
    refine ⟨.templates (ns.map (fun n => (n, markTemplate L n))), ?_, ?_⟩
    · rw [parseMode, if_neg (by decide), if_pos rfl, h]
    · show ts.map (·.1) = (ns.map (fun n => (n, markTemplate L n))).map (·.1)
      rw [List.map_map]
      clear h
      induction hm with
      | nil => rfl
      | cons h _ ih => simp only [List.map_cons, h.1, ih]; rfl
  | yaml n r h hf =>
    refine ⟨.value r.val false, ?_, rfl, rfl⟩
    rw [parseMode, if_neg (by decide), if_neg (by decide), if_pos rfl, (parseSingle_ok L file data n).2 h]
    simp only [hf]
  | multiyaml ns ks d r h hk hd hf =>
    refine ⟨.value r.val false, ?_, rfl, rfl⟩
    rw [parseMode, if_neg (by decide), if_neg (by decide), if_neg (by decide), if_pos rfl, h]
    subst hd
    simp only [(dropEmpties_iff ns ks).2 hk, hf]
  | «import» n h =>
    refine ⟨.value n.val true, ?_, rfl, rfl⟩
    rw [parseMode, if_neg (by decide), if_neg (by decide), if_neg (by decide), if_neg (by decide), if_pos rfl, (parseSingle_ok L file data n).2 h]
  | importmulti ns ks h hk =>
    refine ⟨.value (.list ks) true, ?_, rfl, rfl⟩
    rw [parseMode, if_neg (by decide), if_neg (by decide), if_neg (by decide), if_neg (by decide), if_neg (by decide), if_pos rfl, h]
    simp only [(dropEmpties_iff ns ks).2 hk]
  | text => exact ⟨_, rfl, rfl, rfl⟩
  | binary => exact ⟨_, rfl, rfl, rfl⟩

theorem parseMode_undet (L : ReadLib E) (file src : String) (data : List Nat) (rr : Bool) (mode : String)
    (hd : L.docs file data ≠ some []) : parseMode L file src data rr mode = .err ∨ ∃ r, parseMode L file src data rr mode = .ok r := by
  have hs : parseSingle L file data = .err ∨ ∃ n, parseSingle L file data = .ok n := by
    rcases parseSingle_cases L file data with h | ⟨h, _⟩ | ⟨_, h⟩
    · exact .inr h
    · exact .inl h
    · exact absurd h hd
  unfold parseMode
  rcases hs with hs | ⟨n, hs⟩
  · simp only [hs]
    repeat' split
    all_goals simp
  · simp only [hs]
    repeat' split
    all_goals simp

theorem no_dot_mode (L : ReadLib E) (file : String) (data : List Nat) (rr : Bool) (m : String) (r : ReadResult E) :
    ¬ ModeResult L file data rr ("." ++ m) r := by
  intro h
  generalize hg : "." ++ m = mode at h
  have hh : mode.toList.head? = some '.' := by rw [← hg]; simp
  cases h <;> simp at hh

theorem dotMode_cases (mode : String) : (∃ m, mode = "." ++ m ∧ mode.toList = '.' :: m.toList) ∨ (¬ ∃ m, mode = "." ++ m) := by
  by_cases h : ∃ m, mode = "." ++ m
  · obtain ⟨m, rfl⟩ := h; exact .inl ⟨m, rfl, by simp⟩
  · exact .inr h

theorem parseData_eq (L : ReadLib E) (file : String) (data : List Nat) (mode : String) :
    (∃ m, mode = "." ++ m ∧ parseData L file data mode = parseMode L file file data true m) ∨
    ((¬ ∃ m, mode = "." ++ m) ∧ parseData L file data mode = parseMode L file file data false mode) := by
  unfold parseData
  rcases dotMode_cases mode with ⟨m, h1, h2⟩ | h
  · left
    refine ⟨m, h1, ?_⟩
    rw [h2]
    simp
  · right
    refine ⟨h, ?_⟩
    split
    · rename_i r hr
      exact absurd ⟨String.ofList r, String.toList_injective (by simp [hr])⟩ h
    · rfl

/-- **C80**: whatever is read is what the mode describes: … -/
theorem read_sound (L : ReadLib E) (file : String) (data : List Nat) (mode : String) (r : ReadResult E) (h : parseData L file data mode = .ok r) :
    ModeMeans L file data mode r := by
  rcases parseData_eq L file data mode with ⟨m, rfl, e⟩ | ⟨_, e⟩
  · exact .inr ⟨m, rfl, parseMode_sound L file data true m r (e ▸ h)⟩
  · exact .inl (parseMode_sound L file data false mode r (e ▸ h))

/-- … it is read if the mode describes anything, and the value is the only one described (for templates: the documents evaluated are); … -/
theorem read_complete (L : ReadLib E) (file : String) (data : List Nat) (mode : String) (r : ReadResult E) (h : ModeMeans L file data mode r) :
    ∃ r', parseData L file data mode = .ok r' ∧ SameRead r r' := by
  rcases parseData_eq L file data mode with ⟨m, rfl, e⟩ | ⟨hn, e⟩
  · rw [e]
    rcases h with h | ⟨m', hm, h⟩
    · exact absurd h (no_dot_mode L file data false m r)
    · have : m = m' := String.toList_injective (by simpa using congrArg String.toList hm)
      subst this
      exact parseMode_complete L file data true m r h
  · rw [e]
    rcases h with h | ⟨m', hm, h⟩
    · exact parseMode_complete L file data false mode r h
    · exact absurd ⟨m', hm⟩ hn

/-- … and it is an error otherwise (a YAML source always has a document, `read_some_document`). -/
theorem read_error (L : ReadLib E) (file : String) (data : List Nat) (mode : String) (hd : L.docs file data ≠ some []) :
    parseData L file data mode = .err ↔ ¬ ∃ r, ModeMeans L file data mode r := by
  constructor
  · rintro h ⟨r, hr⟩
    obtain ⟨r', h', _⟩ := read_complete L file data mode r hr
    rw [h] at h'; cases h'
  · intro h
    have : parseData L file data mode = .err ∨ ∃ r, parseData L file data mode = .ok r := by
      rcases parseData_eq L file data mode with ⟨m, rfl, e⟩ | ⟨hn, e⟩ <;> rw [e] <;> exact parseMode_undet L file file data _ _ hd
    rcases this with e | ⟨r, e⟩
    · exact e
    · exact absurd ⟨r, read_sound L file data mode r e⟩ h

theorem suffix_iff (p s : String) : p.toList.isSuffixOf s.toList = true ↔ ∃ b, s = b ++ p := by
  rw [List.isSuffixOf_iff_suffix]
  constructor
  · rintro ⟨b, h⟩; exact ⟨String.ofList b, String.toList_injective (by simp [h])⟩
  · rintro ⟨b, rfl⟩; exact ⟨b.toList, by simp⟩

theorem defaultMode_iff (file mode : String) : defaultMode file = mode ↔ DefaultMode file mode := by
  have hc : ((".yml".toList.isSuffixOf file.toList || ".yaml".toList.isSuffixOf file.toList || ".json".toList.isSuffixOf file.toList) = true) ↔
      ∃ b, file = b ++ ".yml" ∨ file = b ++ ".yaml" ∨ file = b ++ ".json" := by
    simp only [Bool.or_eq_true, suffix_iff]
    constructor
    · rintro ((⟨b, h⟩ | ⟨b, h⟩) | ⟨b, h⟩)
      · exact ⟨b, .inl h⟩
      · exact ⟨b, .inr (.inl h)⟩
      · exact ⟨b, .inr (.inr h)⟩
    · rintro ⟨b, h | h | h⟩
      · exact .inl (.inl ⟨b, h⟩)
      · exact .inl (.inr ⟨b, h⟩)
      · exact .inr ⟨b, h⟩
  unfold defaultMode DefaultMode
  by_cases h : ∃ b, file = b ++ ".yml" ∨ file = b ++ ".yaml" ∨ file = b ++ ".json"
  · rw [if_pos (hc.2 h)]
    constructor
    · rintro rfl; exact .inl ⟨h, rfl⟩
    · rintro (⟨_, rfl⟩ | ⟨hn, _⟩)
      · rfl
      · exact absurd h hn
  · rw [if_neg (fun x => h (hc.1 x))]
    constructor
    · rintro rfl; exact .inr ⟨h, rfl⟩
    · rintro (⟨hn, _⟩ | ⟨_, rfl⟩)
      · exact absurd hn h
      · rfl

/-- **C80**: `read` reads the file in the given mode, or in the default mode for its name; every other call is an error. -/
theorem read_call (L : ReadLib E) (allowed : Bool) (content : String → Option (List Nat)) (args : List (Val E)) (hne : args ≠ []) (o : Out (ReadResult E)) :
    funcRead L allowed content args = o ↔
      (∃ file mode data, allowed = true ∧ (args = [.str file] ∧ DefaultMode file mode ∨ args = [.str file, .str mode]) ∧ content file = some data ∧
        o = parseData L file data mode) ∨
      (o = .err ∧ ¬ ∃ file mode data, allowed = true ∧ (args = [.str file] ∧ DefaultMode file mode ∨ args = [.str file, .str mode]) ∧ content file = some data) := by
  have key : (∃ file mode data, allowed = true ∧ (args = [.str file] ∧ DefaultMode file mode ∨ args = [.str file, .str mode]) ∧ content file = some data ∧
        funcRead L allowed content args = parseData L file data mode) ∨
      (funcRead L allowed content args = .err ∧ ¬ ∃ file mode data, allowed = true ∧ (args = [.str file] ∧ DefaultMode file mode ∨ args = [.str file, .str mode]) ∧ content file = some data) := by
    unfold funcRead
    split
    · rename_i hl
      right; refine ⟨rfl, ?_⟩
      rintro ⟨file, mode, data, _, ⟨rfl, _⟩ | rfl, _⟩ <;> simp at hl
    split
    · rename_i ha
      right; refine ⟨rfl, ?_⟩
      rintro ⟨file, mode, data, rfl, _⟩; simp at ha
    rename_i hl ha
    have ha : allowed = true := by simpa using ha
    split
    · exact absurd rfl hne
    · rename_i file r
      split
      · split
        · rename_i hc
          right; refine ⟨rfl, ?_⟩
          rintro ⟨f, mode, data, _, ⟨h, _⟩ | h, hd⟩
          · cases h; rw [hc] at hd; cases hd
          · cases h
        · rename_i d hd
          left
          exact ⟨file, defaultMode file, d, ha, .inl ⟨rfl, (defaultMode_iff _ _).1 rfl⟩, hd, rfl⟩
      · rename_i mode r'
        have : r' = [] := by
          cases r' with
          | nil => rfl
          | cons => simp at hl
        subst this
        split
        · rename_i hc
          right; refine ⟨rfl, ?_⟩
          rintro ⟨f, mode, data, _, ⟨h, _⟩ | h, hd⟩
          · cases h
          · cases h; rw [hc] at hd; cases hd
        · rename_i d hd
          left
          exact ⟨file, mode, d, ha, .inr rfl, hd, rfl⟩
      · rename_i v r' hv
        right; refine ⟨rfl, ?_⟩
        rintro ⟨f, mode, data, _, ⟨h, _⟩ | h, hd⟩
        · cases h
        · cases h; exact hv _ rfl
    · rename_i h1 h2
      right; refine ⟨rfl, ?_⟩
      rintro ⟨f, mode, data, _, ⟨h, _⟩ | h, hd⟩
      · exact h2 _ _ h
      · exact h2 _ _ h
  constructor
  · rintro rfl
    rcases key with ⟨file, mode, data, h1, h2, h3, h4⟩ | h
    · exact .inl ⟨file, mode, data, h1, h2, h3, h4⟩
    · exact .inr h
  · rintro (⟨file, mode, data, h1, h2, h3, rfl⟩ | ⟨rfl, h⟩)
    · rcases key with ⟨file', mode', data', h1', h2', h3', h4'⟩ | ⟨_, h⟩
      · rw [h4']
        rcases h2 with ⟨rfl, hm⟩ | rfl
        · rcases h2' with ⟨h, hm'⟩ | h
          · cases h
            rw [← (defaultMode_iff _ _).2 hm, ← (defaultMode_iff _ _).2 hm']
            rw [h3] at h3'; cases h3'; rfl
          · cases h
        · rcases h2' with ⟨h, hm'⟩ | h
          · cases h
          · cases h; rw [h3] at h3'; cases h3'; rfl
      · exact absurd ⟨file, mode, data, h1, h2, h3⟩ h
    · rcases key with ⟨file', mode', data', h1', h2', h3', h4'⟩ | ⟨e, _⟩
      · exact absurd ⟨file', mode', data', h1', h2', h3'⟩ h
      · exact e

/-- **C80** (defect): `read()` without arguments crashes the program -/
theorem read_no_argument_defect (L : ReadLib E) (content : String → Option (List Nat)) : funcRead L true content [] = .panic := rfl

/-- **C80**: `parse` reads its text, by default as document that is not processed. -/
theorem parse_call (L : ReadLib E) (path : List String) (args : List (Val E)) (o : Out (ReadResult E)) :
    funcParse L path args = o ↔
      (∃ s mode, (args = [.str s] ∧ mode = "import" ∨ args = [.str s, .str mode]) ∧ o = parseData L (String.intercalate "." path) (utf8Bytes s) mode) ∨
      (o = .err ∧ ¬ ∃ s mode, args = [.str s] ∨ args = [.str s, .str mode]) := by
  unfold funcParse
  split
  · rename_i s
    constructor
    · rintro rfl; exact .inl ⟨s, "import", .inl ⟨rfl, rfl⟩, rfl⟩
    · rintro (⟨s', mode, ⟨h, rfl⟩ | h, rfl⟩ | ⟨_, h⟩)
      · cases h; rfl
      · cases h
      · exact absurd ⟨s, "", .inl rfl⟩ h
  · rename_i s mode
    constructor
    · rintro rfl; exact .inl ⟨s, mode, .inr rfl, rfl⟩
    · rintro (⟨s', mode, ⟨h, rfl⟩ | h, rfl⟩ | ⟨_, h⟩)
      · cases h
      · cases h; rfl
      · exact absurd ⟨s, mode, .inr rfl⟩ h
  · rename_i h1 h2
    constructor
    · rintro rfl
      refine .inr ⟨rfl, ?_⟩
      rintro ⟨s, mode, rfl | rfl⟩
      · exact h1 _ rfl
      · exact h2 _ _ rfl
    · rintro (⟨s', mode, ⟨rfl, rfl⟩ | rfl, rfl⟩ | ⟨rfl, h⟩)
      · exact absurd rfl (h1 _)
      · exact absurd rfl (h2 _ _)
      · rfl

/-- **C80**: a file read as binary and written as binary is copied, whatever it contains -/
theorem copy_binary (L : ReadLib E) (I : IoLib E) (accepts : WriteReq → Bool) (content : String → Option (List Nat)) (src dst : String) (hd : dst ≠ "")
    (data : List Nat) (hb : ∀ b ∈ data, b < 256) (hc : content src = some data) :
    ∃ t name, funcRead L true content [.str src, .str "binary"] = .ok (.value (.str t) false) ∧
      (funcWrite I true accepts [.str dst, .str t, .str "binary"]).1 = some ⟨name, data, 0o644⟩ := by
  obtain ⟨name, h⟩ := write_binary_roundtrip I accepts dst hd data hb 60
  refine ⟨_, name, ?_, h⟩
  unfold funcRead
  simp only [List.length_cons, List.length_nil, Bool.not_true, Bool.false_eq_true, if_false, hc]
  rfl

/-- **C80** (defect): the new root (leading dot) is ignored for templates … -/
theorem read_template_root_defect (L : ReadLib E) (file : String) (data : List Nat) :
    parseData L file data ".template" = parseData L file data "template" := rfl

/-- … a list whose marker is written without a blank gets a second one … -/
theorem template_marker_blank_defect (L : ReadLib E) (r : List (Node E))
    (hr : ∀ y ∈ r, ¬ MarkerEntry L y) :
    ∃ a b k, (markTemplate L (Node.new (.list (Node.new (.map [("<<<", Node.new (.str "((&template))") "")]) "" :: r)) "")).val = .list (a :: b :: k) ∧
      a.val = .map [("<<<", Node.new (.str "(( &template ))") "")] ∧ b.val = .map [("<<<", Node.new (.str "((&template))") "")] := by
  have hm := marked_template L (Node.new (.list (Node.new (.map [("<<<", Node.new (.str "((&template))") "")]) "" :: r)) "")
  have hb : isMarkerEntry L (nodeCopy (Node.new (.map [("<<<", Node.new (.str "((&template))") "")]) "")) = false := by
    have : embeddedDynaml L.quote L.interpol "((&template))".toList = some "&template".toList := by
      have hd : dynamlBody "((&template))".toList = some "&template".toList := by decide +kernel
      unfold embeddedDynaml
      rw [hd]
      rfl
    rw [← Bool.not_eq_true, isMarkerEntry_iff, markerEntry_copy]
    rintro ⟨m, x, t, b, h1, h2, h3, h4, h5⟩
    cases h1
    rcases h2 with h2 | ⟨h2, _⟩
    · cases h2
      cases h3
      rw [this] at h4; cases h4
      rw [← templPattern_iff] at h5
      exact absurd h5 (by decide +kernel)
    · cases h2
  have hall : (Node.new (.map [("<<<", Node.new (.str "((&template))") "")]) "" :: r : List (Node E)).any (fun y => isMarkerEntry L (nodeCopy y)) = false := by
    rw [List.any_cons, hb, Bool.false_or, List.any_eq_false]
    intro y hy h
    exact hr y hy ((markerEntry_copy L y).1 ((isMarkerEntry_iff L _).1 h))
  have e : markTemplate L (Node.new (.list (Node.new (.map [("<<<", Node.new (.str "((&template))") "")]) "" :: r)) "") =
      Node.new (.list (Node.new (.map [(MERGEKEY, templMarker "")]) "" ::
        (Node.new (.map [("<<<", Node.new (.str "((&template))") "")]) "" :: r).map nodeCopy)) "" := by
    unfold markTemplate
    rw [val_copy, Node.val_new, valCopy.eq_1, listCopy_eq]
    dsimp only
    rw [List.any_map]
    rw [if_neg]
    · rfl
    · rw [Bool.not_eq_true]; exact hall
  rw [e]
  exact ⟨_, _, _, rfl, rfl, rfl⟩

/-- … and a map with both merge keys gets none: if the template is written and read again, it is an ordinary map. -/
theorem template_marker_missing_defect (L : ReadLib E) : ∃ n : Node E, (∃ m, n.val = .map m) ∧ SameData n (markTemplate L n) ∧
    ∀ m, (markTemplate L n).val = .map m → ∀ k x, mget m k = some x → ¬ IsMarker x := by
  refine ⟨Node.new (.map [("<<<", Node.new (.str "(( merge ))") ""), ("<<", Node.new (.str "(( x ))") "")]) "", ⟨_, rfl⟩, sameData_copy _, ?_⟩
  intro m hm k x hx hi
  have : m = [("<<<", Node.new (.str "(( merge ))") ""), ("<<", Node.new (.str "(( x ))") "")] := (Val.map.inj hm).symm
  subst this
  have := mget_some_mem hx
  simp only [List.mem_cons, List.not_mem_nil, or_false, Prod.mk.injEq] at this
  unfold IsMarker at hi
  rcases this with ⟨_, rfl⟩ | ⟨_, rfl⟩ <;> (rw [Node.val_new] at hi; simp at hi)

/-- trailing empty documents are kept for templates and dropped otherwise -/
theorem read_empties_differ (L : ReadLib E) (file : String) (data : List Nat) (n e : Node E) (he : e.val = .nil) (h : L.docs file data = some [n, e]) :
    parseData L file data "importmulti" = .ok (.value (.list [n]) true) ∧
    ∃ t, parseData L file data "templates" = .ok (.templates [(n, t), (e, nodeCopy e)]) := by
  constructor
  · have : parseData L file data "importmulti" = parseMode L file file data false "importmulti" := rfl
    rw [this, parseMode, if_neg (by decide), if_neg (by decide), if_neg (by decide), if_neg (by decide), if_neg (by decide), if_pos rfl, h]
    dsimp only
    have : dropEmpties [n, e] = [n] := by simp [dropEmpties, isNilDoc, he]
    rw [this]
  · refine ⟨markTemplate L n, ?_⟩
    have : parseData L file data "templates" = parseMode L file file data false "templates" := rfl
    rw [this, parseMode, if_neg (by decide), if_pos rfl, h]
    have : markTemplate L e = nodeCopy e := by
      unfold markTemplate
      rw [val_copy, he]
      rfl
    simp [this]

/-- a library with a single map as document -/
def oneDocLib : ReadLib Unit where
  docs := fun _ _ => some [Node.new (.map [("a", Node.new (.int 1) "f")]) "f", Node.new .nil "f"]
  flow := fun _ n => some n
  text := fun _ => ""
  quote := id
  interpol := false

/-- a case that meets the description: two documents, the second is empty -/
example : ModeMeans oneDocLib "f" [] ".multiyaml" (.value (.list [Node.new (.map [("a", Node.new (.int 1) "f")]) "f"]) false) :=
  .inr ⟨"multiyaml", rfl, .multiyaml _ _ _ (Node.new (.list [Node.new (.map [("a", Node.new (.int 1) "f")]) "f"]) "f") rfl
    ⟨⟨[Node.new .nil "f"], rfl, by simp [Node.val_new]⟩, by simp, by simp⟩ rfl rfl⟩
/-- … and one which is an error: more than one document where one is expected -/
example : parseData oneDocLib "f" [] "yaml" = .err := rfl

end Spiff
