import Verif.Spec.Select
import Verif.Lemmas.Maps
import Verif.Lemmas.Index
import Mathlib.Data.List.Induction
import Mathlib.Data.List.TakeWhile
/-
C15: path lookup.
-/
namespace Spiff
open Spec
variable {E : Type}

theorem digitsVal_concat (ds : List Char) (c : Char) : digitsVal (ds ++ [c]) = digitsVal ds * 10 + (c.toNat - 48) := by
  simp [digitsVal]

theorem digit_toNat (d : Nat) (h : d < 10) : (Char.ofNat (48 + d)).toNat = 48 + d := by
  have : d = 0 ∨ d = 1 ∨ d = 2 ∨ d = 3 ∨ d = 4 ∨ d = 5 ∨ d = 6 ∨ d = 7 ∨ d = 8 ∨ d = 9 := by omega
  rcases this with h | h | h | h | h | h | h | h | h | h <;> subst h <;> rfl

theorem isDigitC (c : Char) : ((decide ('0' ≤ c) && decide (c ≤ '9')) = true) ↔ (48 ≤ c.toNat ∧ c.toNat ≤ 57) := by
  simp only [Bool.and_eq_true, decide_eq_true_eq]
  exact Iff.rfl

theorem digit_ofNat (c : Char) (h : 48 ≤ c.toNat ∧ c.toNat ≤ 57) : ∃ d, d < 10 ∧ c = Char.ofNat (48 + d) := by
  refine ⟨c.toNat - 48, by omega, ?_⟩
  rw [show 48 + (c.toNat - 48) = c.toNat by omega, Char.ofNat_toNat]

theorem decimal_iff (ds : List Char) (n : Nat) : Decimal ds n ↔ isDigits ds = true ∧ digitsVal ds = n := by
  constructor
  · intro h
    induction h with
    | digit d h =>
      refine ⟨?_, ?_⟩
      · simp only [isDigits, List.isEmpty_cons, Bool.not_false, List.all_cons, List.all_nil, Bool.and_true, Bool.true_and]
        rw [isDigitC, digit_toNat d h]; omega
      · have := digitsVal_concat [] (Char.ofNat (48 + d))
        rw [digit_toNat d h] at this
        simpa [digitsVal] using this
    | more ds n d h _ ih =>
      refine ⟨?_, ?_⟩
      · simp only [isDigits, Bool.and_eq_true, List.all_append] at ih ⊢
        refine ⟨by simp, ih.1.2, ?_⟩
        simp only [List.all_cons, List.all_nil, Bool.and_true]
        rw [isDigitC, digit_toNat d h]; omega
      · rw [digitsVal_concat, ih.2, digit_toNat d h]; omega
  · rintro ⟨h1, h2⟩
    induction ds using List.reverseRecOn generalizing n with
    | nil => simp [isDigits] at h1
    | append_singleton ds c ih =>
      rw [digitsVal_concat] at h2
      simp only [isDigits, Bool.and_eq_true, List.all_append, List.all_cons, List.all_nil, Bool.and_true] at h1
      have hc := (isDigitC c).1 (by rw [Bool.and_eq_true]; exact h1.2.2)
      obtain ⟨d, hd, rfl⟩ := digit_ofNat c hc
      rw [digit_toNat d hd] at h2
      cases ds with
      | nil =>
        have : n = d := by simp [digitsVal] at h2; omega
        subst this
        exact Decimal.digit n hd
      | cons x xs =>
        have := ih (digitsVal (x :: xs)) (by simp only [isDigits, Bool.and_eq_true]; exact ⟨rfl, h1.2.1⟩) rfl
        have h3 := Decimal.more _ _ d hd this
        have : n = 10 * digitsVal (x :: xs) + d := by omega
        rw [this]; exact h3

theorem isDigits_not_minus (ds : List Char) (h : isDigits ds = true) (r : List Char) : ds ≠ '-' :: r := by
  rintro rfl
  simp [isDigits] at h

theorem listIndex_iff (step : String) (i : Int) : listIndex step.toList = some i ↔ IndexStep step i := by
  unfold IndexStep
  generalize step.toList = s
  constructor
  · intro h
    unfold listIndex at h
    split at h
    · next r =>
      split at h
      · next hl =>
        have hr : r = r.dropLast ++ [']'] := by
          rw [List.getLast?_eq_some_iff] at hl
          obtain ⟨ys, rfl⟩ := hl
          simp
        split at h
        · next ds hd =>
          split at h
          · next hds =>
            refine ⟨ds, digitsVal ds, (decimal_iff _ _).2 ⟨hds, rfl⟩, Or.inr ⟨?_, ?_⟩⟩
            · rw [hr, hd]; simp
            · simpa using h.symm
          · simp at h
        · next ds _ =>
          split at h
          · next hds =>
            refine ⟨r.dropLast, digitsVal r.dropLast, (decimal_iff _ _).2 ⟨hds, rfl⟩, Or.inl ⟨?_, ?_⟩⟩
            · conv => lhs; rw [hr]
              rfl
            · simpa using h.symm
          · simp at h
      · simp at h
    · simp at h
  · rintro ⟨ds, n, hd, h | h⟩
    · obtain ⟨rfl, rfl⟩ := h
      obtain ⟨h1, h2⟩ := (decimal_iff _ _).1 hd
      unfold listIndex
      simp only [List.cons_append, List.getLast?_concat, if_true, List.dropLast_concat]
      split
      · exact absurd rfl (isDigits_not_minus _ h1 _)
      · simp [h1, h2]
    · obtain ⟨rfl, rfl⟩ := h
      obtain ⟨h1, h2⟩ := (decimal_iff _ _).1 hd
      unfold listIndex
      simp only [List.cons_append]
      rw [show '-' :: (ds ++ [']']) = ('-' :: ds) ++ [']'] from rfl]
      simp only [List.getLast?_concat, if_true, List.dropLast_concat]
      simp [h1, h2]

theorem span_loop (p : Char → Bool) (s acc : List Char) :
    List.span.loop p s acc = (acc.reverse ++ s.takeWhile p, s.dropWhile p) := by
  induction s generalizing acc with
  | nil => simp [List.span.loop]
  | cons c r ih =>
    unfold List.span.loop
    cases h : p c <;> simp [h, ih]

theorem span_eq (p : Char → Bool) (s : List Char) : s.span p = (s.takeWhile p, s.dropWhile p) := by
  unfold List.span; rw [span_loop]; rfl

theorem splitColon_some (s k n : List Char) :
    splitColon s = some (k, n) ↔ k ≠ [] ∧ ':' ∉ k ∧ s = k ++ ':' :: n := by
  unfold splitColon
  rw [span_eq]
  constructor
  · intro h
    split at h
    · next k' ks d rest he =>
      simp only [Option.some.injEq, Prod.mk.injEq] at h he
      obtain ⟨rfl, rfl⟩ := h
      obtain ⟨h1, h2⟩ := he
      refine ⟨by simp, ?_, ?_⟩
      · intro hm
        rw [← h1] at hm
        have := List.mem_takeWhile_imp hm
        simp at this
      · have hd : d = ':' := by
          have := List.head?_dropWhile_not (fun c => decide (c ≠ ':')) s
          rw [h2] at this
          simpa using this
        have := List.takeWhile_append_dropWhile (p := fun c => decide (c ≠ ':')) (l := s)
        rw [h1, h2, hd] at this
        exact this.symm
    · simp at h
  · rintro ⟨h1, h2, rfl⟩
    have hall : ∀ a ∈ k, decide (a ≠ ':') = true := by
      intro a ha
      simp only [decide_eq_true_eq]
      rintro rfl; exact h2 ha
    rw [List.takeWhile_append_of_pos hall, List.dropWhile_append_of_pos hall]
    cases k with
    | nil => exact absurd rfl h1
    | cons a r => simp

theorem splitColon_none (s : List Char) : splitColon s = none ↔ ':' ∉ s ∨ s.head? = some ':' := by
  constructor
  · intro h
    by_cases hm : ':' ∈ s
    · obtain ⟨k, n, rfl, hk⟩ := List.eq_append_cons_of_mem hm
      cases k with
      | nil => exact Or.inr rfl
      | cons a r =>
        have := (splitColon_some _ (a :: r) n).2 ⟨by simp, hk, rfl⟩
        rw [this] at h; simp at h
    · exact Or.inl hm
  · intro h
    cases hs : splitColon s with
    | none => rfl
    | some kn =>
      obtain ⟨k, n⟩ := kn
      obtain ⟨h1, h2, rfl⟩ := (splitColon_some s k n).1 hs
      rcases h with h | h
      · simp at h
      · cases k with
        | nil => exact absurd rfl h1
        | cons a r => simp at h; subst h; simp at h2

theorem hasPrefix_lt (k : String) : hasPrefix k "<<" = true ↔ k.toList.take 2 = ['<', '<'] := by
  unfold hasPrefix
  rw [show "<<".toList = ['<', '<'] from rfl]
  generalize k.toList = l
  match l with
  | [] => simp
  | [a] => simp
  | a :: b :: r =>
    simp only [List.isPrefixOf, List.take, Bool.and_true, Bool.and_eq_true, beq_iff_eq, List.cons.injEq, and_true]
    exact ⟨fun h => ⟨h.1.symm, h.2.symm⟩, fun h => ⟨h.1.symm, h.2.symm⟩⟩

theorem isMapResolved_iff (ctl : Bool) (m : List (String × Node E)) :
    isMapResolved ctl m = true ↔ Addressable ctl m := by
  unfold isMapResolved Addressable
  simp only [Bool.and_eq_true, Bool.not_eq_true', Option.isNone_iff_eq_none, mget_none_iff, mkeys, List.mem_map,
    MERGEKEY, Bool.and_eq_false_iff, List.any_eq_false, hasPrefix_lt]
  constructor
  · rintro ⟨⟨h1, h2⟩, h3⟩
    refine ⟨fun e he => ⟨fun h => h2 ⟨e, he, h⟩, fun h => h3 ⟨e, he, h⟩⟩, fun hc e he => ?_⟩
    rcases h1 with h1 | h1
    · rw [hc] at h1; simp at h1
    · exact h1 e he
  · rintro ⟨h1, h2⟩
    refine ⟨⟨?_, ?_⟩, ?_⟩
    · cases ctl with
      | false => exact Or.inl rfl
      | true => exact Or.inr (fun e he => h2 rfl e he)
    · rintro ⟨e, he, h⟩; exact (h1 e he).1 h
    · rintro ⟨e, he, h⟩; exact (h1 e he).2 h

theorem isListResolved_iff (l : List (Node E)) : isListResolved l = true ↔ AddressableL l := by
  unfold isListResolved AddressableL
  simp only [List.all_eq_true, Option.isNone_iff_eq_none]
  constructor
  · intro h n hn k v hv
    have := h n hn
    unfold listEntryMerge at this
    rw [hv] at this
    simp only at this
    split at this
    · simp at this
    · split at this
      · simp at this
      · exact ⟨by assumption, by assumption⟩
  · intro h n hn
    unfold listEntryMerge
    split
    · next k v hv =>
      obtain ⟨h1, h2⟩ := h n hn k v hv
      simp [h1, MERGEKEY, h2]
    · rfl

theorem stepMap_iff (ctl raw : Bool) (m : List (String × Node E)) (step : String) (c : Node E) :
    stepMap ctl raw m step = some c ↔ (raw = true ∨ Addressable ctl m) ∧ mget m step = some c := by
  unfold stepMap
  rw [← isMapResolved_iff]
  cases raw <;> cases isMapResolved ctl m <;> simp

theorem hasName_iff (ctl raw : Bool) (key name : String) (n : Node E) :
    HasName ctl raw key name n ↔ ∃ m s a, n.val = .map m ∧ stepMap ctl raw m key = some (.mk (.str name) s a) := by
  unfold HasName
  constructor
  · rintro ⟨m, v, h1, h2, h3, h4⟩
    refine ⟨m, v.src, v.ann, h1, (stepMap_iff ..).2 ⟨h2, ?_⟩⟩
    rw [h3, ← h4]; cases v; rfl
  · rintro ⟨m, s, a, h1, h2⟩
    obtain ⟨h3, h4⟩ := (stepMap_iff ..).1 h2
    exact ⟨m, _, h1, h3, h4, rfl⟩

theorem findNamed_cons (ctl raw : Bool) (sub : Node E) (r : List (Node E)) (key name : String) :
    findNamed ctl raw (sub :: r) key name = open Classical in
      if HasName ctl raw key name sub then some sub else findNamed ctl raw r key name := by
  rw [hasName_iff]
  rw [findNamed]
  split
  · next m hm =>
    split
    · next n s a hs =>
      by_cases hn : n = name
      · subst hn
        rw [if_pos rfl, if_pos ⟨m, s, a, hm, hs⟩]
      · rw [if_neg hn, if_neg]
        rintro ⟨m', s', a', h1, h2⟩
        rw [hm] at h1; cases h1
        rw [hs] at h2; cases h2; exact hn rfl
    · next hs =>
      rw [if_neg]
      rintro ⟨m', s', a', h1, h2⟩
      rw [hm] at h1; cases h1
      exact hs _ _ _ h2
  · next hm =>
    rw [if_neg]
    rintro ⟨m', s', a', h1, h2⟩
    exact hm _ h1

theorem findNamed_iff (ctl raw : Bool) (l : List (Node E)) (key name : String) (c : Node E) :
    findNamed ctl raw l key name = some c ↔
      ∃ before after, l = before ++ c :: after ∧ (∀ x ∈ before, ¬ HasName ctl raw key name x) ∧ HasName ctl raw key name c := by
  classical
  induction l with
  | nil => simp [findNamed]
  | cons sub r ih =>
    rw [findNamed_cons]
    by_cases h : HasName ctl raw key name sub
    · rw [if_pos h]
      constructor
      · intro hh; cases hh
        exact ⟨[], r, rfl, by simp, h⟩
      · rintro ⟨b, a, h1, h2, h3⟩
        cases b with
        | nil => simp at h1; rw [h1.1]
        | cons x xs =>
          simp at h1
          exact absurd h (h1.1 ▸ h2 x (by simp))
    · rw [if_neg h, ih]
      constructor
      · rintro ⟨b, a, rfl, h2, h3⟩
        refine ⟨sub :: b, a, rfl, ?_, h3⟩
        intro x hx
        rcases List.mem_cons.1 hx with rfl | hx
        · exact h
        · exact h2 x hx
      · rintro ⟨b, a, h1, h2, h3⟩
        cases b with
        | nil => simp at h1; exact absurd (h1.1 ▸ h3) h
        | cons x xs =>
          simp at h1
          exact ⟨xs, a, h1.2, fun y hy => h2 y (by simp [hy]), h3⟩

theorem indexList_found (l : List (Node E)) (i : Int) (c : Node E) :
    indexList l i = .found c ↔ (-(2^63) ≤ i ∧ i < 2^63) ∧
      ∃ j : Nat, (j : Int) = (if i < 0 then l.length + i else i) ∧ l[j]? = some c := by
  unfold indexList
  by_cases hr : i < -(2^63) ∨ i ≥ 2^63
  · have : (decide (i < -(2^63)) || decide (i ≥ 2^63)) = true := by simpa using hr
    rw [if_pos this]
    constructor
    · intro h; cases h
    · rintro ⟨⟨h1, h2⟩, _⟩; omega
  · have : ¬ (decide (i < -(2^63)) || decide (i ≥ 2^63)) = true := by simpa using hr
    rw [if_neg this]
    have hb : -(2^63) ≤ i ∧ i < 2^63 := by omega
    by_cases hn : i < 0
    · simp only [hn, if_true]
      by_cases hl : (l.length : Int) + i < 0
      · simp only [hl, if_true]
        constructor
        · intro h; cases h
        · rintro ⟨_, j, hj, _⟩; omega
      · simp only [hl, if_false]
        constructor
        · intro h
          refine ⟨hb, ((l.length : Int) + i).toNat, by omega, ?_⟩
          split at h
          · next n hn => cases h; exact hn
          · cases h
        · rintro ⟨_, j, hj, hc⟩
          have : ((l.length : Int) + i).toNat = j := by omega
          rw [this, hc]
    · simp only [hn, if_false]
      constructor
      · intro h
        refine ⟨hb, i.toNat, by omega, ?_⟩
        split at h
        · next n hn => cases h; exact hn
        · cases h
      · rintro ⟨_, j, hj, hc⟩
        have : i.toNat = j := by omega
        rw [this, hc]

/-- key and name of a step -/
def keyedStep (dflt step : String) : String × String :=
  match splitColon step.toList with
  | some (k, s) => (String.ofList k, String.ofList s)
  | none => (dflt, step)

theorem stepList_named (ctl raw : Bool) (l : List (Node E)) (step key : String) (h : listIndex step.toList = none) :
    stepList ctl raw l step key =
      match findNamed ctl raw l (keyedStep (if key = "" then "name" else key) step).1
        (keyedStep (if key = "" then "name" else key) step).2 with
      | some n => .found n
      | none => .missing := by
  unfold stepList
  rw [h]
  rfl

theorem nameStep_iff (dflt step key name : String) :
    NameStep dflt step key name ↔ keyedStep dflt step = (key, name) := by
  unfold NameStep keyedStep
  cases hs : splitColon step.toList with
  | none =>
    have h0 := (splitColon_none _).1 hs
    simp only [Prod.mk.injEq]
    constructor
    · rintro (⟨k, h1, h2, h3, h4⟩ | ⟨rfl, rfl, _⟩)
      · rw [(splitColon_some _ k name.toList).2 ⟨h1, h2, h3⟩] at hs; simp at hs
      · exact ⟨rfl, rfl⟩
    · rintro ⟨rfl, rfl⟩
      exact Or.inr ⟨rfl, rfl, h0⟩
  | some kn =>
    obtain ⟨k, n⟩ := kn
    obtain ⟨h1, h2, h3⟩ := (splitColon_some _ _ _).1 hs
    simp only [Prod.mk.injEq]
    constructor
    · rintro (⟨k', h1', h2', h3', h4'⟩ | ⟨rfl, rfl, h⟩)
      · have := (splitColon_some _ k' name.toList).2 ⟨h1', h2', h3'⟩
        rw [hs] at this
        simp only [Option.some.injEq, Prod.mk.injEq] at this
        obtain ⟨rfl, rfl⟩ := this
        subst h4'
        simp
      · rw [(splitColon_none _).2 h] at hs; simp at hs
    · rintro ⟨rfl, rfl⟩
      exact Or.inl ⟨k, h1, h2, by simpa using h3, by simp⟩

/-- One lookup step finds a node iff the step selects it. -/
theorem nextStep_iff (ctl raw : Bool) (step : String) (n c : Node E) :
    nextStep ctl raw step n = .found c ↔ Selects ctl raw n step c := by
  unfold nextStep
  cases hv : n.val with
  | map m =>
    simp only
    constructor
    · intro h
      split at h
      · next x hx =>
        cases h
        obtain ⟨h1, h2⟩ := (stepMap_iff ..).1 hx
        exact Selects.field n c m step hv h1 h2
      · cases h
    · intro h
      cases h with
      | field _ m' _ hv' hr hc =>
        rw [hv] at hv'; cases hv'
        rw [(stepMap_iff ..).2 ⟨hr, hc⟩]
      | index _ l _ i j hv' => rw [hv] at hv'; cases hv'
      | named _ l b a _ k nm hv' => rw [hv] at hv'; cases hv'
  | list l =>
    simp only
    have hres : (!raw && !isListResolved l) = true ↔ ¬ (raw = true ∨ AddressableL l) := by
      rw [← isListResolved_iff]; cases raw <;> simp
    by_cases hr : raw = true ∨ AddressableL l
    · rw [if_neg (fun h => hres.1 h hr)]
      cases hi : listIndex step.toList with
      | some i =>
        unfold stepList
        rw [hi]
        simp only
        rw [indexList_found]
        have hi' := (listIndex_iff step i).1 hi
        constructor
        · rintro ⟨hb, j, hj, hc⟩
          exact Selects.index n c l step i j hv hr hi' hb hj hc
        · intro h
          cases h with
          | field _ m' _ hv' => rw [hv] at hv'; cases hv'
          | index _ l' _ i' j hv' _ hi'' hb hj hc =>
            rw [hv] at hv'; cases hv'
            have := (listIndex_iff step i').2 hi''
            rw [hi] at this; cases this
            exact ⟨hb, j, hj, hc⟩
          | named _ l' b a _ k nm hv' _ hno =>
            exact absurd hi' (hno i)
      | none =>
        rw [stepList_named _ _ _ _ _ hi]
        have hno : ∀ i, ¬ IndexStep step i := fun i h => by
          rw [(listIndex_iff step i).2 h] at hi; cases hi
        constructor
        · intro h
          have key := nameStep_iff (if n.ann.keyName = "" then "name" else n.ann.keyName) step
          generalize hp : keyedStep (if n.ann.keyName = "" then "name" else n.ann.keyName) step = p at h key
          obtain ⟨k, nm⟩ := p
          simp only at h
          split at h
          · next x hx =>
            cases h
            obtain ⟨b, a, h1, h2, h3⟩ := (findNamed_iff ..).1 hx
            exact Selects.named n c l b a step k nm hv hr hno ((key k nm).2 rfl) h1 h2 h3
          · cases h
        · intro h
          cases h with
          | field _ m' _ hv' => rw [hv] at hv'; cases hv'
          | index _ l' _ i' j hv' _ hi'' => exact absurd hi'' (hno i')
          | named _ l' b a _ k nm hv' _ _ hs hl hb hc =>
            rw [hv] at hv'; cases hv'
            rw [(nameStep_iff _ step k nm).1 hs]
            simp only
            rw [(findNamed_iff ..).2 ⟨b, a, hl, hb, hc⟩]
    · rw [if_pos (hres.2 hr)]
      constructor
      · intro h; cases h
      · intro h
        cases h with
        | field _ m' _ hv' => rw [hv] at hv'; cases hv'
        | index _ l' _ i' j hv' hr' => rw [hv] at hv'; cases hv'; exact absurd hr' hr
        | named _ l' b a _ k nm hv' hr' => rw [hv] at hv'; cases hv'; exact absurd hr' hr
  | _ =>
    simp only
    constructor
    · intro h; cases h
    · intro h
      cases h with
      | field _ m' _ hv' => rw [hv] at hv'; cases hv'
      | index _ l' _ i' j hv' hr' => rw [hv] at hv'; cases hv'
      | named _ l' b a _ k nm hv' hr' => rw [hv] at hv'; cases hv'

/-- C15: the lookup of a path finds a node iff the path reaches it step by step. -/
theorem find_iff_reaches (ctl raw : Bool) (root n : Node E) (path : List String) :
    findR ctl raw root path = .found n ↔ Reaches ctl raw root path n := by
  induction path generalizing root with
  | nil =>
    simp only [findR]
    constructor
    · intro h; cases h; exact .here _
    · intro h; cases h; rfl
  | cons s p ih =>
    rw [findR]
    constructor
    · intro h
      cases hs : nextStep ctl raw s root with
      | found c =>
        rw [hs] at h
        exact .step _ c _ _ _ ((nextStep_iff ..).1 hs) ((ih c).1 h)
      | missing => rw [hs] at h; cases h
      | panic => rw [hs] at h; cases h
    · intro h
      cases h with
      | step _ c _ _ _ h1 h2 =>
        rw [(nextStep_iff ..).2 h1]
        exact (ih c).2 h2

/-- C15: a path reaches at most one node. -/
theorem reaches_unique (ctl raw : Bool) (root n n' : Node E) (path : List String)
    (h : Reaches ctl raw root path n) (h' : Reaches ctl raw root path n') : n = n' := by
  have := (find_iff_reaches ..).2 h
  rw [(find_iff_reaches ..).2 h'] at this
  cases this; rfl

/-- C15: the lookup of a concatenated path is the lookup of the first part followed by the lookup
of the second part. -/
theorem find_compose (ctl raw : Bool) (root : Node E) (p q : List String) :
    findR ctl raw root (p ++ q) = match findR ctl raw root p with
      | .found n => findR ctl raw n q
      | .missing => .missing
      | .panic => .panic := by
  induction p generalizing root with
  | nil => rfl
  | cons s p ih =>
    rw [List.cons_append, findR, findR]
    cases nextStep ctl raw s root with
    | found c => exact ih c
    | missing => rfl
    | panic => rfl

/-- A list step goes out of the bounds that the code checks: an index below `-length`, or one
that is no machine integer. -/
def BadStep (raw : Bool) (n : Node E) (step : String) : Prop :=
  ∃ l i, n.val = .list l ∧ (raw = true ∨ AddressableL l) ∧ IndexStep step i ∧
    (i < -(l.length : Int) ∨ i < -(2^63) ∨ 2^63 ≤ i)

theorem nextStep_panic_iff (ctl raw : Bool) (step : String) (n : Node E)
    (hl : ∀ l, n.val = .list l → l.length < 2^63) :
    nextStep ctl raw step n = .panic ↔ BadStep raw n step := by
  unfold nextStep BadStep
  cases hv : n.val with
  | map m =>
    simp only
    constructor
    · intro h; split at h <;> cases h
    · rintro ⟨l, i, h, _⟩; cases h
  | list l =>
    simp only
    have hres : (!raw && !isListResolved l) = true ↔ ¬ (raw = true ∨ AddressableL l) := by
      rw [← isListResolved_iff]; cases raw <;> simp
    by_cases hr : raw = true ∨ AddressableL l
    · rw [if_neg (fun h => hres.1 h hr)]
      cases hi : listIndex step.toList with
      | some i =>
        unfold stepList
        rw [hi]
        simp only
        have hi' := (listIndex_iff step i).1 hi
        have hll := hl l hv
        have hp : indexList l i = .panic ↔ (i < -(l.length : Int) ∨ i < -(2^63) ∨ 2^63 ≤ i) := by
          unfold indexList
          by_cases h1 : i < -(2^63) ∨ i ≥ 2^63
          · have : (decide (i < -(2^63)) || decide (i ≥ 2^63)) = true := by simpa using h1
            rw [if_pos this]
            exact ⟨fun _ => Or.inr h1, fun _ => rfl⟩
          · have : ¬ (decide (i < -(2^63)) || decide (i ≥ 2^63)) = true := by simpa using h1
            rw [if_neg this]
            by_cases hn : i < 0
            · simp only [hn, if_true]
              by_cases h2 : (l.length : Int) + i < 0
              · rw [if_pos h2]
                exact ⟨fun _ => by omega, fun _ => rfl⟩
              · simp only [h2, if_false]
                constructor
                · intro h; split at h <;> cases h
                · intro h; omega
            · simp only [hn, if_false]
              constructor
              · intro h; split at h <;> cases h
              · intro h; omega
        rw [hp]
        constructor
        · intro h; exact ⟨l, i, rfl, hr, hi', h⟩
        · rintro ⟨l', i', h1, h2, h3, h4⟩
          cases h1
          have := (listIndex_iff step i').2 h3
          rw [hi] at this; cases this
          exact h4
      | none =>
        rw [stepList_named _ _ _ _ _ hi]
        constructor
        · intro h; split at h <;> cases h
        · rintro ⟨l', i', h1, h2, h3, h4⟩
          rw [(listIndex_iff step i').2 h3] at hi; cases hi
    · rw [if_pos (hres.2 hr)]
      constructor
      · intro h; cases h
      · rintro ⟨l', i', h1, h2, h3, h4⟩
        cases h1; exact absurd h2 hr
  | _ =>
    simp only
    constructor
    · intro h; cases h
    · rintro ⟨l, i, h, _⟩; cases h

/-- C15: a lookup crashes iff a prefix of the path reaches a list and the next step is an
index below `-length` (or no machine integer). In all other cases it returns normally. -/
theorem find_panics_iff (ctl raw : Bool) (root : Node E) (path : List String)
    (hl : ∀ p n l, Reaches ctl raw root p n → n.val = .list l → l.length < 2^63) :
    findR ctl raw root path = .panic ↔
      ∃ p s q n, path = p ++ s :: q ∧ Reaches ctl raw root p n ∧ BadStep raw n s := by
  induction path generalizing root with
  | nil =>
    constructor
    · intro h; cases h
    · rintro ⟨p, s, q, n, h, _⟩; simp at h
  | cons s p ih =>
    rw [findR]
    have hs := nextStep_panic_iff ctl raw s root (fun l h => hl [] root l (.here _) h)
    cases h : nextStep ctl raw s root with
    | panic =>
      simp only [true_iff]
      exact ⟨[], s, p, root, rfl, .here _, hs.1 h⟩
    | missing =>
      constructor
      · intro h; cases h
      · rintro ⟨p', s', q, n, h1, h2, h3⟩
        cases h2 with
        | here => simp at h1; rw [← h1.1] at h3; rw [hs.2 h3] at h; cases h
        | step _ c _ x y h4 h5 =>
          simp at h1
          rw [← h1.1] at h4
          rw [(nextStep_iff ..).2 h4] at h; cases h
    | found c =>
      have hc := (nextStep_iff ..).1 h
      rw [ih c (fun p n l hr hv => hl (s :: p) n l (.step _ c _ _ _ hc hr) hv)]
      constructor
      · rintro ⟨p', s', q, n, h1, h2, h3⟩
        exact ⟨s :: p', s', q, n, by rw [h1]; rfl, .step _ c _ _ _ hc h2, h3⟩
      · rintro ⟨p', s', q, n, h1, h2, h3⟩
        cases h2 with
        | here => simp at h1; rw [← h1.1] at h3; rw [hs.2 h3] at h; cases h
        | step _ c' _ x y h4 h5 =>
          simp at h1
          obtain ⟨rfl, rfl⟩ := h1
          have := (nextStep_iff ..).2 h4
          rw [h] at this; cases this
          exact ⟨y, s', q, n, rfl, h5, h3⟩

/-! ### non-triviality -/

/-- `l: [{name: a, v: 1}, {name: a, v: 2}, {id: b}]` -/
def findDoc : Node Empty := .mk (.map [("l", .mk (.list [
  .mk (.map [("name", .mk (.str "a") "" {}), ("v", .mk (.int 1) "" {})]) "" {},
  .mk (.map [("name", .mk (.str "a") "" {}), ("v", .mk (.int 2) "" {})]) "" {},
  .mk (.map [("id", .mk (.str "b") "" {})]) "" {}]) "" {})]) "" {}

example : findR false false findDoc ["l", "a", "v"] = .found (.mk (.int 1) "" {}) := by rfl
example : findR false false findDoc ["l", "[-2]", "v"] = .found (.mk (.int 2) "" {}) := by rfl
example : findR false false findDoc ["l", "id:b", "id"] = .found (.mk (.str "b") "" {}) := by rfl
example : findR false false findDoc ["l", "b"] = .missing := by rfl
example : findR false false findDoc ["l", "[3]"] = .missing := by rfl

/-- the crash exists: index `[-4]` in a list of length 3 -/
theorem find_crash_witness : findR false false findDoc ["l", "[-4]", "v"] = .panic := by rfl

end Spiff
