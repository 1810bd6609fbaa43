import Verif.Model.StrFns
import Verif.Props.Lists
/-
C33 (split, join), C34 (substr), C54 (replace), trim.
-/
namespace Spiff
open Spec
variable {E : Type}

/-! ### split and join -/

theorem findSub_split {sep s : List Char} {m : Nat} (h : findSub sep s = some m) :
    s = s.take m ++ sep ++ s.drop (m + sep.length) ∧ m + sep.length ≤ s.length := by
  obtain ⟨⟨a, b, hs, ha⟩, -⟩ := (findSub_some sep s m).1 h
  subst hs
  subst ha
  simp only [List.append_assoc, List.take_left, List.length_append]
  refine ⟨?_, by omega⟩
  rw [List.drop_append, List.drop_of_length_le (by omega)]
  simp

theorem take_no_occurrence {sep s : List Char} {m : Nat} (hsep : sep ≠ []) (h : findSub sep s = some m) (i : Nat) :
    ¬ OccursAt sep (s.take m) i := by
  rintro ⟨a, b, hab, hi⟩
  have hmin := ((findSub_some sep s m).1 h).2
  have hle := (findSub_split h).2
  have hlen : a.length + sep.length + b.length = m := by
    have := congrArg List.length hab
    simp only [List.length_append, List.length_take] at this
    omega
  have hpos : 0 < sep.length := List.length_pos_iff.2 hsep
  refine hmin i (by omega) ⟨a, b ++ s.drop m, ?_, hi⟩
  conv_lhs => rw [← List.take_append_drop m s, hab]
  simp

theorem splitCuts_ne (sep : List Char) (n : Nat) (s : List Char) : splitCuts sep n s ≠ [] := by
  cases n with
  | zero => simp [splitCuts]
  | succ n => unfold splitCuts; split <;> simp

theorem splitCuts_length (sep : List Char) (n : Nat) (s : List Char) : (splitCuts sep n s).length ≤ n + 1 := by
  induction n generalizing s with
  | zero => simp [splitCuts]
  | succ n ih =>
    unfold splitCuts
    split
    · simp
    · next m _ => have := ih (s.drop (m + sep.length)); simp only [List.length_cons]; omega

theorem joinStrings_cons (sep s : String) (l : List String) (h : l ≠ []) :
    joinStrings sep (s :: l) = s ++ sep ++ joinStrings sep l := by
  cases l with
  | nil => exact absurd rfl h
  | cons a l => rfl

theorem join_splitCuts (sep : List Char) (n : Nat) (s : List Char) :
    joinStrings (String.ofList sep) ((splitCuts sep n s).map String.ofList) = String.ofList s := by
  induction n generalizing s with
  | zero => rfl
  | succ n ih =>
    unfold splitCuts
    split
    · rfl
    · next m h =>
      rw [List.map_cons, joinStrings_cons _ _ _ (by simpa using splitCuts_ne sep n _), ih, ← String.ofList_append,
        ← String.ofList_append, ← (findSub_split h).1]

/-- all parts but the last one of a limited split do not contain the separator -/
theorem splitCuts_init (sep : List Char) (hsep : sep ≠ []) (n : Nat) (s : List Char) :
    ∀ p ∈ (splitCuts sep n s).dropLast, ∀ i, ¬ OccursAt sep p i := by
  induction n generalizing s with
  | zero => simp [splitCuts]
  | succ n ih =>
    unfold splitCuts
    split
    · simp
    · next m h =>
      rw [List.dropLast_cons_of_ne_nil (splitCuts_ne sep n _)]
      intro p hp
      rcases List.mem_cons.1 hp with rfl | hp
      · exact take_no_occurrence hsep h
      · exact ih _ p hp

theorem splitCuts_all (sep : List Char) (hsep : sep ≠ []) (n : Nat) (s : List Char) (hn : s.length ≤ n) :
    ∀ p ∈ splitCuts sep n s, ∀ i, ¬ OccursAt sep p i := by
  induction n generalizing s with
  | zero =>
    have : s = [] := List.length_eq_zero_iff.1 (by omega)
    subst this
    simp [splitCuts, occurs_nil, hsep]
  | succ n ih =>
    unfold splitCuts
    split
    · next h => simpa using (findSub_none sep s).1 h
    · next m h =>
      intro p hp
      rcases List.mem_cons.1 hp with rfl | hp
      · exact take_no_occurrence hsep h
      · refine ih _ ?_ p hp
        have := List.length_pos_iff.2 hsep
        simp only [List.length_drop]
        omega

/-- if the limit cuts a split short, the last part is what remains; otherwise it does not contain the separator -/
theorem splitCuts_last (sep : List Char) (hsep : sep ≠ []) (n : Nat) (s : List Char)
    (h : (splitCuts sep n s).length < n + 1) : ∀ p ∈ splitCuts sep n s, ∀ i, ¬ OccursAt sep p i := by
  induction n generalizing s with
  | zero => simp [splitCuts] at h
  | succ n ih =>
    rw [splitCuts] at h ⊢
    split at h
    · next h' => simpa using (findSub_none sep s).1 h'
    · next m h' =>
      intro p hp
      rcases List.mem_cons.1 hp with rfl | hp
      · exact take_no_occurrence hsep h'
      · exact ih _ (by simpa using h) p hp

theorem join_singles (s : List Char) (last : List Char) :
    joinStrings "" ((s.map (fun c => [c]) ++ [last]).map String.ofList) = String.ofList (s ++ last) := by
  induction s with
  | nil => rfl
  | cons c s ih =>
    rw [List.map_cons, List.cons_append, List.map_cons, joinStrings_cons _ _ _ (by simp), ih]
    rw [String.append_empty, ← String.ofList_append]
    rfl

theorem join_explode (n : Int) (hn : n ≠ 0) (s : List Char) :
    joinStrings "" ((explode n s).map String.ofList) = String.ofList s := by
  unfold explode
  simp only
  by_cases hk : (if n < 0 ∨ n > s.length then s.length else n.toNat) > 0
  · rw [if_pos hk, join_singles, List.take_append_drop]
  · rw [if_neg hk]
    have : s = [] := by
      split at hk
      · exact List.length_eq_zero_iff.1 (by omega)
      · omega
    subst this
    simp
    rfl

theorem joinElems_nodes (src : String) (l : List (List Char)) :
    joinElems (strNodes src l : List (Node E)) = some (l.map String.ofList) := by
  induction l with
  | nil => rfl
  | cons a l ih =>
    simp only [strNodes, List.map_cons] at ih ⊢
    rw [joinElems, ih]
    rfl

theorem join_nodes (src : String) (sep : String) (l : List (List Char)) :
    funcJoin [(.str sep : Val E), .list (strNodes src l)] = .ok (.str (joinStrings sep (l.map String.ofList))) := by
  simp [funcJoin, joinArgs, keyString, joinElems_nodes]

/-- C33: Joining the parts of a split with the same separator restores the string, for every separator and every limit but 0. -/
theorem join_split (src : String) (sep s : String) (n : Int) (hn : n ≠ 0) :
    ∃ parts : List (List Char),
      funcSplit src [(.str sep : Val E), .str s, .int n] = .ok (.list (strNodes src parts)) ∧
      funcJoin [(.str sep : Val E), .list (strNodes src parts)] = .ok (.str s) := by
  refine ⟨splitN s.toList sep.toList n, rfl, ?_⟩
  rw [join_nodes]
  congr 2
  unfold splitN
  rw [if_neg hn]
  split
  · next h =>
    have : sep = "" := by rw [← String.ofList_toList (s := sep), h]
    subst this
    rw [join_explode n hn, String.ofList_toList]
  · conv_lhs => rw [← String.ofList_toList (s := sep)]
    rw [String.toList_ofList, join_splitCuts, String.ofList_toList]

/-- C33: without limit (or a negative one) no part contains the (non-empty) separator -/
theorem split_parts (src : String) (sep s : String) (hsep : sep ≠ "") :
    ∃ parts : List (List Char),
      funcSplit src [(.str sep : Val E), .str s] = .ok (.list (strNodes src parts)) ∧
      (∀ n < 0, funcSplit src [(.str sep : Val E), .str s, .int n] = .ok (.list (strNodes src parts))) ∧
      parts ≠ [] ∧ ∀ p ∈ parts, ∀ i, ¬ OccursAt sep.toList p i := by
  have h0 : sep.toList ≠ [] := by
    intro h
    exact hsep (by rw [← String.ofList_toList (s := sep), h])
  refine ⟨splitCuts sep.toList s.toList.length s.toList, ?_, ?_, splitCuts_ne _ _ _, splitCuts_all _ h0 _ _ (by omega)⟩
  · simp [funcSplit, splitVals, splitN, h0]
  · intro n hn
    simp only [funcSplit, splitVals, splitN, h0, if_false, hn, if_true, if_neg (by omega : ¬ n = 0)]

/-- C33: with a limit `n > 0` there are at most `n` parts; all but the last one do not contain the separator, and the last one
does only if there are `n` parts; with the limit 0 the result is empty. -/
theorem split_limit (src : String) (sep s : String) (hsep : sep ≠ "") (n : Int) (hn : 0 ≤ n) :
    ∃ parts : List (List Char),
      funcSplit src [(.str sep : Val E), .str s, .int n] = .ok (.list (strNodes src parts)) ∧
      (parts.length : Int) ≤ n ∧ (∀ p ∈ parts.dropLast, ∀ i, ¬ OccursAt sep.toList p i) ∧
      ((parts.length : Int) < n → ∀ p ∈ parts, ∀ i, ¬ OccursAt sep.toList p i) := by
  have h0 : sep.toList ≠ [] := by
    intro h
    exact hsep (by rw [← String.ofList_toList (s := sep), h])
  by_cases hz : n = 0
  · subst hz
    exact ⟨[], rfl, by simp, by simp, by simp⟩
  · refine ⟨splitCuts sep.toList (n - 1).toNat s.toList, ?_, ?_, splitCuts_init _ h0 _ _, ?_⟩
    · simp only [funcSplit, splitVals, splitN, h0, if_false, hz, if_neg (by omega : ¬ n < 0)]
    · have := splitCuts_length sep.toList (n - 1).toNat s.toList
      omega
    · intro h
      exact splitCuts_last _ h0 _ _ (by omega)

/-! splitting by length -/

theorem splitLen_spec (max : Int) (hmax : 0 < max) (s : List Char) : ∀ (n : Int) (cur : List Char) (acc : List (List Char)),
    (cur.length : Int) ≤ max → n < 0 →
    ∃ ps, splitLen max n cur cur.length acc s = acc ++ ps ∧ ps.flatten = cur ++ s ∧ (∀ p ∈ ps, p ≠ [] ∧ (p.length : Int) ≤ max) ∧
      (∀ p ∈ ps.dropLast, (p.length : Int) = max) := by
  induction s with
  | nil =>
    intro n cur acc hc hn
    unfold splitLen
    by_cases h : cur = []
    · subst h; exact ⟨[], by simp, by simp, by simp, by simp⟩
    · have := List.length_pos_iff.2 h
      rw [if_pos (by omega)]
      exact ⟨[cur], rfl, by simp, by simpa using ⟨h, hc⟩, by simp⟩
  | cons c s ih =>
    intro n cur acc hc hn
    unfold splitLen
    split
    · next h =>
      obtain ⟨ps, h1, h2, h3, h4⟩ := ih (n - 1) [c] (acc ++ [cur]) (by simp; omega) (by omega)
      have hcl : (cur.length : Int) = max := by omega
      refine ⟨cur :: ps, ?_, by simp [h2], ?_, ?_⟩
      · simpa using h1
      · intro p hp
        rcases List.mem_cons.1 hp with rfl | hp
        · refine ⟨?_, by omega⟩
          rintro rfl
          simp at hcl; omega
        · exact h3 p hp
      · have hps : ps ≠ [] := by rintro rfl; simp at h2
        rw [List.dropLast_cons_of_ne_nil hps]
        intro p hp
        rcases List.mem_cons.1 hp with rfl | hp
        · exact hcl
        · exact h4 p hp
    · next h =>
      have hlt : (cur.length : Int) < max := by
        by_contra hc'
        exact h ⟨by omega, .inl hn⟩
      have : ((cur.length : Nat) : Int) + 1 = ((cur ++ [c]).length : Int) := by simp
      rw [this]
      obtain ⟨ps, h1, h2, h3, h4⟩ := ih n (cur ++ [c]) acc (by simp; omega) hn
      exact ⟨ps, h1, by simp [h2], h3, h4⟩

/-- C33: with an integer `max > 0` as first argument the string is cut into non-empty pieces of length `max` (the last one possibly
shorter) whose concatenation is the string. -/
theorem split_by_length (src : String) (max : Int) (s : String) (hmax : 0 < max) :
    ∃ parts : List (List Char),
      funcSplit src [(.int max : Val E), .str s] = .ok (.list (strNodes src parts)) ∧
      parts.flatten = s.toList ∧ (∀ p ∈ parts, p ≠ [] ∧ (p.length : Int) ≤ max) ∧
      ∀ p ∈ parts.dropLast, (p.length : Int) = max := by
  obtain ⟨ps, h1, h2, h3, h4⟩ := splitLen_spec max hmax s.toList (-1) [] [] (by simp; omega) (by omega)
  refine ⟨ps, ?_, by simpa using h2, h3, h4⟩
  simp only [List.length_nil, Int.natCast_zero, List.nil_append] at h1
  simp only [funcSplit, splitVals, if_neg (by omega : ¬ max ≤ 0)]
  rw [h1]

theorem split_by_length_invalid (src : String) (max : Int) (s : String) (hmax : max ≤ 0) (n : Int) :
    funcSplit src [(.int max : Val E), .str s] = .err ∧ funcSplit src [(.int max : Val E), .str s, .int n] = .err := by
  simp [funcSplit, splitVals, hmax]

/-! join -/

/-- C33: the text pieces contributed by an argument of join -/
inductive Pieces : Val E → List String → Prop where
  | simple (v s) (h : keyString v = some s) : Pieces v [s]
  | list (l ss) (h : List.Forall₂ (fun (n : Node E) s => keyString n.val = some s) l ss) : Pieces (.list l) ss
  | nil : Pieces .nil []

theorem joinElems_iff (l : List (Node E)) (ss : List String) :
    joinElems l = some ss ↔ List.Forall₂ (fun (n : Node E) s => keyString n.val = some s) l ss := by
  induction l generalizing ss with
  | nil => cases ss <;> simp [joinElems]
  | cons e l ih =>
    unfold joinElems
    cases ss with
    | nil =>
      simp only [List.forall₂_nil_right_iff, reduceCtorEq, iff_false]
      split <;> simp
    | cons a ss =>
      rw [List.forall₂_cons, ← ih]
      split
      · next s hs =>
        simp only [Option.map_eq_some_iff, List.cons.injEq, hs, Option.some.injEq]
        constructor
        · rintro ⟨x, h, h1, rfl⟩; exact ⟨h1, h⟩
        · rintro ⟨h1, h⟩; exact ⟨ss, h, h1, rfl⟩
      · next hs => simp [hs]

theorem joinArgs_iff (args : List (Val E)) (ss : List String) :
    joinArgs false args = some ss ↔ ∃ pss, List.Forall₂ Pieces args pss ∧ ss = pss.flatten := by
  induction args generalizing ss with
  | nil => simp [joinArgs, eq_comm]
  | cons a args ih =>
    have key : ∀ (v : Val E) (f : List String → Prop), ((∃ ps, Pieces v ps ∧ f ps) ↔
        match v with
        | .list l => ∃ ps, joinElems l = some ps ∧ f ps
        | .nil => f []
        | v => ∃ s, keyString v = some s ∧ f [s]) := by
      intro v f
      constructor
      · rintro ⟨ps, hp, hf⟩
        cases hp with
        | simple _ s h => cases v <;> first | exact ⟨s, h, hf⟩ | simp [keyString] at h
        | list l _ h => exact ⟨ps, (joinElems_iff l ps).2 h, hf⟩
        | nil => exact hf
      · intro h
        cases v with
        | list l => obtain ⟨ps, h, hf⟩ := h; exact ⟨ps, .list l ps ((joinElems_iff l ps).1 h), hf⟩
        | nil => exact ⟨[], .nil, h⟩
        | _ => obtain ⟨s, h, hf⟩ := h; exact ⟨[s], .simple _ s h, hf⟩
    have lhs : (∃ pss, List.Forall₂ Pieces (a :: args) pss ∧ ss = pss.flatten) ↔
        ∃ ps, Pieces a ps ∧ ∃ rs, joinArgs false args = some rs ∧ ss = ps ++ rs := by
      constructor
      · rintro ⟨pss, h, rfl⟩
        cases h with
        | cons h1 h2 => exact ⟨_, h1, _, (ih _).2 ⟨_, h2, rfl⟩, rfl⟩
      · rintro ⟨ps, h1, rs, h2, rfl⟩
        obtain ⟨pss, h3, rfl⟩ := (ih _).1 h2
        exact ⟨ps :: pss, .cons h1 h3, rfl⟩
    rw [lhs, key]
    have simp1 : ∀ s : String, ((joinArgs false args).map (s :: ·) = some ss ↔ ∃ rs, joinArgs false args = some rs ∧ ss = [s] ++ rs) := by
      intro s; simp [eq_comm]
    cases a with
    | list l =>
      simp only [joinArgs, Bool.false_eq_true, if_false]
      rcases hj : joinElems l with _ | x
      · simp
      · simp [eq_comm]
    | nil => simp [joinArgs]
    | _ =>
      simp only [joinArgs]
      first
      | (simp only [keyString, simp1]; simp)
      | simp [keyString]

/-- C33: `join` with a simple value as separator joins the text of all further arguments, where lists are expanded and nil is
ignored. -/
theorem join_spec (a : Val E) (sep : String) (args : List (Val E)) (pss : List (List String)) (ha : keyString a = some sep)
    (h : List.Forall₂ Pieces args pss) : funcJoin (a :: args) = .ok (.str (joinStrings sep pss.flatten)) := by
  have h1 := (joinArgs_iff args _).2 ⟨pss, h, rfl⟩
  have h2 : joinArgs true (a :: args) = some (sep :: pss.flatten) := by
    cases a <;> simp [keyString] at ha <;> simp [joinArgs, keyString, ha, h1]
  simp [funcJoin, h2]

/-- Recorded defect: only nil arguments crash. -/
theorem join_panic : funcJoin [(.nil : Val E)] = .panic := rfl

/-! ### substr -/

/-- C34: `substr` never crashes; it yields the symbols from position `s` (inclusively) to `e` (exclusively), negative
positions counting from the end, if they are in the right order and in the string, and an error otherwise. -/
theorem substr_spec {α : Type} (l : List α) (start : Int) (stop : Option Int) (s e : Int)
    (hs : s = if start < 0 then l.length + start else start)
    (he : e = stop.elim (l.length : Int) (fun x => if x < 0 then l.length + x else x)) :
    substr l start stop = if 0 ≤ s ∧ s ≤ e ∧ e ≤ l.length then .ok ((l.drop s.toNat).take (e.toNat - s.toNat)) else .err := by
  have hr : substrRange l.length start stop = if 0 ≤ s ∧ s ≤ e ∧ e ≤ l.length then some (s, e) else none := by
    unfold substrRange
    simp only
    rw [← hs, ← he]
    by_cases h1 : (l.length : Int) < e
    · rw [if_pos h1, if_neg (by omega)]
    · rw [if_neg h1]
      by_cases h2 : s < 0
      · rw [if_pos h2, if_neg (by omega)]
      · rw [if_neg h2]
        by_cases h3 : s > e
        · rw [if_pos h3, if_neg (by omega)]
        · rw [if_neg h3, if_pos (by omega)]
  unfold substr
  rw [hr]
  split
  · next h => split at h
              · cases h
              · next hc => rw [if_neg hc]
  · next s' e' h =>
    split at h
    · next hc =>
      simp only [Option.some.injEq, Prod.mk.injEq] at h
      obtain ⟨rfl, rfl⟩ := h
      unfold goSlice
      rw [if_pos hc, if_pos hc]
    · cases h

theorem substr_no_panic {α : Type} (l : List α) (start : Int) (stop : Option Int) : substr l start stop ≠ .panic := by
  intro h
  rw [substr_spec l start stop _ _ rfl rfl] at h
  generalize (if start < 0 then (l.length : Int) + start else start) = s at h
  generalize stop.elim (l.length : Int) (fun x => if x < 0 then l.length + x else x) = e at h
  split at h <;> cases h

/-! ### trim -/

/-- `trim` removes exactly the longest prefix and suffix of characters from the cut set. -/
theorem trim_spec (cut s : List Char) : ∃ a b, s = a ++ trimChars cut s ++ b ∧ (∀ c ∈ a, c ∈ cut) ∧ (∀ c ∈ b, c ∈ cut) ∧
    (∀ c, (trimChars cut s).head? = some c → c ∉ cut) ∧ (∀ c, (trimChars cut s).getLast? = some c → c ∉ cut) := by
  set p : Char → Bool := fun c => cut.contains c with hp
  have hpc : ∀ c, p c = true ↔ c ∈ cut := by intro c; simp [hp]
  have htw : ∀ (l : List Char) c, c ∈ l.takeWhile p → p c = true := by
    intro l c hc
    exact List.all_eq_true.1 List.all_takeWhile c hc
  set t := s.dropWhile p with ht
  have e1 : s.takeWhile p ++ t = s := List.takeWhile_append_dropWhile
  have e2 : t.reverse.takeWhile p ++ t.reverse.dropWhile p = t.reverse := List.takeWhile_append_dropWhile
  have e3 : (t.reverse.dropWhile p).reverse ++ (t.reverse.takeWhile p).reverse = t := by
    rw [← List.reverse_append, e2, List.reverse_reverse]
  have htrim : trimChars cut s = (t.reverse.dropWhile p).reverse := rfl
  refine ⟨s.takeWhile p, (t.reverse.takeWhile p).reverse, ?_, ?_, ?_, ?_, ?_⟩
  · rw [htrim, List.append_assoc, e3, e1]
  · intro c hc; exact (hpc c).1 (htw _ _ hc)
  · intro c hc; exact (hpc c).1 (htw _ _ (List.mem_reverse.1 hc))
  · intro c hc
    rw [htrim] at hc
    have hne : (t.reverse.dropWhile p).reverse ≠ [] := by intro h; simp [h] at hc
    have hht : t.head? = some c := by
      rw [← e3, List.head?_append_of_ne_nil _ hne]; exact hc
    have : ¬ p c = true := by
      intro hpt
      have hd := List.head?_dropWhile_not p s
      rw [← ht, hht] at hd
      simp [hpt] at hd
    rwa [hpc] at this
  · intro c hc
    rw [htrim, List.getLast?_reverse] at hc
    have hd := List.head?_dropWhile_not p t.reverse
    rw [hc] at hd
    have : ¬ p c = true := by
      intro hpt; simp [hpt] at hd
    rwa [hpc] at this

/-! ### replace -/

/-- C54: `r` is `s` with the first `n` (all for negative `n`) non-overlapping occurrences of `old` from left to right
replaced by `new`. -/
inductive Replaced (old new : List Char) : Int → List Char → List Char → Prop where
  | done (s) : Replaced old new 0 s s
  | none (n s) (h : ∀ i, ¬ OccursAt old s i) : Replaced old new n s s
  | step (n a b r) (hn : n ≠ 0) (hfirst : ∀ i < a.length, ¬ OccursAt old (a ++ old ++ b) i)
      (h : Replaced old new (if n < 0 then n else n - 1) b r) : Replaced old new n (a ++ old ++ b) (a ++ new ++ r)

theorem replLoop_replaced (old new : List Char) (hold : old ≠ []) (k : Nat) : ∀ (s : List Char) (n : Int),
    (n = k ∨ n < 0 ∧ s.length < k) → Replaced old new n s (replLoop old new k s) := by
  induction k with
  | zero =>
    intro s n h
    have : n = 0 := by omega
    subst this
    exact .done s
  | succ k ih =>
    intro s n h
    unfold replLoop
    split
    · next hf => exact .none n s ((findSub_none old s).1 hf)
    · next m hf =>
      obtain ⟨h1, h2⟩ := findSub_split hf
      have hlen : (s.take m).length = m := by simp; omega
      have hpos : 0 < old.length := List.length_pos_iff.2 hold
      have := Replaced.step (old := old) (new := new) n (s.take m) (s.drop (m + old.length))
        (replLoop old new k (s.drop (m + old.length))) (by omega) (by
          rw [← h1, hlen]
          exact ((findSub_some old s m).1 hf).2) (ih _ _ (by
          simp only [List.length_drop]
          split <;> omega))
      rwa [← h1] at this

/-- C54: `replace` with a non-empty pattern -/
theorem replace_spec (s old new : String) (hold : old ≠ "") (n : Int) :
    ∃ r : String, funcReplace [(.str s : Val E), .str old, .str new, .int n] = .ok (.str r) ∧
      Replaced old.toList new.toList n s.toList r.toList := by
  have h0 : old.toList ≠ [] := by
    intro h
    exact hold (by rw [← String.ofList_toList (s := old), h])
  refine ⟨_, rfl, ?_⟩
  rw [String.toList_ofList]
  unfold goReplace
  simp only [h0, if_false]
  split
  · exact replLoop_replaced _ _ h0 _ _ _ (by omega)
  · exact replLoop_replaced _ _ h0 _ _ _ (by omega)

theorem replace_all (s old new : String) :
    funcReplace [(.str s : Val E), .str old, .str new] = funcReplace [(.str s : Val E), .str old, .str new, .int (-1)] := rfl

/-- the result is determined by the specification -/
theorem replaced_unique {old new : List Char} {n : Int} {s r r' : List Char} (h : Replaced old new n s r)
    (h' : Replaced old new n s r') : r = r' := by
  induction h generalizing r' with
  | done s => cases h' with
    | done => rfl
    | none => rfl
    | step _ a b r hn => exact absurd rfl hn
  | none n s hs =>
    generalize hs' : s = x at h'
    cases h' with
    | done => rfl
    | none => exact hs'.symm ▸ rfl
    | step _ a b r hn hf h =>
      exact absurd ⟨a, b, hs', rfl⟩ (hs a.length)
  | step n a b r hn hf h ih =>
    generalize hs' : a ++ old ++ b = x at h'
    cases h' with
    | done => exact absurd rfl hn
    | none _ _ hx => exact absurd ⟨a, b, hs'.symm, rfl⟩ (hx a.length)
    | step _ a' b' r' hn' hf' h' =>
      have hlen : a.length = a'.length := by
        rcases Nat.lt_trichotomy a.length a'.length with hlt | heq | hgt
        · exact absurd ⟨a, b, hs'.symm, rfl⟩ (hf' a.length hlt)
        · exact heq
        · exact absurd ⟨a', b', hs', rfl⟩ (hf a'.length hgt)
      rw [List.append_assoc, List.append_assoc] at hs'
      obtain ⟨rfl, h2⟩ := List.append_inj hs' hlen
      obtain ⟨-, rfl⟩ := List.append_inj h2 rfl
      rw [ih h']

/-- C54: an empty pattern matches before every character and at the end -/
theorem replEmpty_eq (new : List Char) (k : Nat) (s : List Char) : replEmpty new k s =
    if k ≤ s.length then (s.take k).flatMap (fun c => new ++ [c]) ++ s.drop k
    else s.flatMap (fun c => new ++ [c]) ++ new := by
  induction s generalizing k with
  | nil =>
    cases k with
    | zero => simp [replEmpty]
    | succ k => simp [replEmpty]
  | cons c s ih =>
    cases k with
    | zero => simp [replEmpty]
    | succ k =>
      rw [replEmpty, ih]
      simp only [List.length_cons, Nat.add_le_add_iff_right, List.take_succ_cons, List.flatMap_cons, List.drop_succ_cons]
      split <;> simp

theorem replace_empty_pattern (s new : String) (n : Int) :
    ∃ r : String, funcReplace [(.str s : Val E), .str "", .str new, .int n] = .ok (.str r) ∧
      r.toList = if 0 ≤ n ∧ n ≤ s.toList.length then
          (s.toList.take n.toNat).flatMap (fun c => new.toList ++ [c]) ++ s.toList.drop n.toNat
        else s.toList.flatMap (fun c => new.toList ++ [c]) ++ new.toList := by
  refine ⟨_, rfl, ?_⟩
  rw [String.toList_ofList]
  unfold goReplace
  simp only [String.toList_empty, if_true, replEmpty_eq]
  by_cases hn : n < 0
  · rw [if_pos hn, if_neg (by omega), if_neg (by omega)]
  · rw [if_neg hn]
    by_cases hl : n ≤ s.toList.length
    · rw [if_pos (by omega), if_pos (by omega)]
    · rw [if_neg (by omega), if_neg (by omega)]

/-- C54: A substitution function yielding a fixed string replaces like the string itself. -/
theorem processReplace_const (pat new : List Char) : ∀ (fuel : Nat) (b : List Char) (cnt : Int) (e : Bool), b.length + 1 < fuel →
    (pat = [] → e = true) →
    processReplace (stringFinder pat) (fun _ _ => some new) fuel e cnt b = some (goReplace b pat new cnt) := by
  have hgo : ∀ (b : List Char) (cnt : Int) (pat : List Char), goReplace b pat new cnt =
      if pat = [] then replEmpty new (if cnt < 0 then b.length + 1 else cnt.toNat) b
      else replLoop pat new (if cnt < 0 then b.length + 1 else cnt.toNat) b := fun _ _ _ => rfl
  -- more replacements than occurrences do not matter
  have hmore : ∀ (k k' : Nat) (b : List Char), pat ≠ [] → b.length < k → b.length < k' → replLoop pat new k b = replLoop pat new k' b := by
    intro k k' b hp hk hk'
    exact replaced_unique (replLoop_replaced pat new hp k b (-1) (by omega)) (replLoop_replaced pat new hp k' b (-1) (by omega))
  intro fuel
  induction fuel with
  | zero => intro b cnt e h; omega
  | succ fuel ih =>
    intro b cnt e hf he
    unfold processReplace
    by_cases hc : cnt = 0
    · subst hc
      rw [if_pos rfl, hgo]
      simp only [Int.lt_irrefl, if_false, Int.toNat_zero]
      split <;> simp [replEmpty, replLoop]
    · rw [if_neg hc]
      by_cases hp : pat = []
      · subst hp
        have he := he rfl
        subst he
        have hfind : stringFinder [] b = some (0, 0) := by
          have : findSub [] b = some 0 := by cases b <;> simp [findSub]
          simp [stringFinder, this]
        simp only [hfind, Bool.true_or, if_true, List.drop_zero, List.take_zero, List.nil_append]
        cases b with
        | nil =>
          rw [hgo]
          simp only [if_true, List.length_nil]
          obtain ⟨k, hk⟩ : ∃ k, (if cnt < 0 then 0 + 1 else cnt.toNat) = k + 1 := by
            split
            · exact ⟨0, rfl⟩
            · exact ⟨cnt.toNat - 1, by omega⟩
          rw [hk]; rfl
        | cons c b' =>
          simp only
          rw [ih b' _ true (by simp at hf; omega) (by simp), hgo, hgo]
          simp only [if_true, Option.map_some, Option.some.injEq, List.length_cons]
          by_cases hn : cnt < 0
          · rw [if_neg (by omega : ¬ cnt > 0), if_pos hn, if_pos hn]; rfl
          · rw [if_pos (by omega : cnt > 0), if_neg (by omega), if_neg hn]
            obtain ⟨k, hk⟩ : ∃ k, cnt.toNat = k + 1 := ⟨cnt.toNat - 1, by omega⟩
            rw [hk, show (cnt - 1).toNat = k by omega]; rfl
      · have hpos : 0 < pat.length := List.length_pos_iff.2 hp
        rcases hfs : findSub pat b with _ | m
        · have : stringFinder pat b = none := by simp [stringFinder, hfs]
          simp only [this]
          rw [hgo, if_neg hp]
          congr 1
          symm
          exact replaced_unique (replLoop_replaced pat new hp _ b cnt (by split <;> omega)) (.none _ _ ((findSub_none pat b).1 hfs))
        · have hsf : stringFinder pat b = some (m, m + pat.length) := by simp [stringFinder, hfs]
          have hle := (findSub_split hfs).2
          simp only [hsf]
          rw [if_pos (by simp; omega)]
          simp only
          rw [if_neg (by omega), ih _ _ false (by simp; omega) (by intro h; exact absurd h hp), hgo, hgo]
          simp only [hp, if_false, Option.map_some, Option.some.injEq]
          obtain ⟨k, hk⟩ : ∃ k, (if cnt < 0 then b.length + 1 else cnt.toNat) = k + 1 := by
            split
            · exact ⟨b.length, rfl⟩
            · exact ⟨cnt.toNat - 1, by omega⟩
          have hstep : replLoop pat new (k + 1) b = b.take m ++ new ++ replLoop pat new k (b.drop (m + pat.length)) := by
            rw [replLoop, hfs]
          rw [hk, hstep]
          congr 1
          by_cases hn : cnt < 0
          · rw [if_pos hn] at hk
            rw [if_neg (by omega : ¬ cnt > 0), if_pos hn]
            exact hmore _ _ _ hp (by omega) (by simp; omega)
          · rw [if_neg hn] at hk
            rw [if_pos (by omega : cnt > 0), if_neg (by omega)]
            congr 1
            omega

example : funcReplace [(.str "aaa" : Val Unit), .str "aa", .str "b"] = .ok (.str "ba") := by rfl
example : funcSplit "" [(.str "," : Val Unit), .str "a,b,c", .int 2] = .ok (.list (strNodes "" [['a'], ['b', ',', 'c']])) := by rfl

end Spiff
