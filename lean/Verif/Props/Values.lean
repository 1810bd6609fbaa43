import Verif.Model.Values
import Verif.Lemmas.Maps
import Verif.Props.MapFns
import Mathlib.Data.List.Induction
/-
C47: value definitions on the command line.
-/
namespace Spiff
variable {E : Type}

/-! ### Specification -/

/-- Specification: the node found by following a path of field names. -/
def lookupPath : List String → List (String × Node E) → Option (Node E)
  | [], _ => none
  | [k], m => mget m k
  | k :: k' :: ks, m =>
    match mget m k with
    | some (.mk (.map n) _ _) => lookupPath (k' :: ks) n
    | _ => none

/-- Specification: neither path leads into the other one. -/
def Incomparable (p q : List String) : Prop := ¬ p <+: q ∧ ¬ q <+: p

/-- Specification: some inner field of the path exists, but is no map. -/
def Blocked (p : List String) (m : List (String × Node E)) : Prop :=
  ∃ q x, q <+: p ∧ q ≠ p ∧ lookupPath q m = some x ∧ ∀ n, x.val ≠ .map n

/-- Specification: a path component as written in a name: dots are escaped by a backslash,
and backslashes directly in front of a dot (for an inner component also those at its end, as
they are followed by the separating dot) are doubled. -/
def encodeComp (inner : Bool) : List Char → List Char
  | [] => []
  | c :: r =>
    if c = '.' then '\\' :: '.' :: encodeComp inner r
    else if c = '\\' ∧ ((r.dropWhile (· = '\\')).head? = some '.' ∨
        (inner = true ∧ r.dropWhile (· = '\\') = [])) then
      '\\' :: '\\' :: encodeComp inner r
    else c :: encodeComp inner r

/-- Specification: the name denoting a path. -/
def encodePath : List (List Char) → List Char
  | [] => []
  | [c] => encodeComp false c
  | c :: d :: r => encodeComp true c ++ '.' :: encodePath (d :: r)

/-! ### one assignment -/

theorem lookupPath_cons (k k' : String) (ks : List String) (m : List (String × Node E)) :
    lookupPath (k :: k' :: ks) m = (match mget m k with
      | some (.mk (.map n) _ _) => lookupPath (k' :: ks) n
      | _ => none) := by rw [lookupPath]

/-- the three cases of a longer assignment -/
theorem setAt_cons {v : Node E} {k k' : String} {ks : List String} {m m' : List (String × Node E)}
    (h : setAt v (k :: k' :: ks) m = some m') :
    ∃ n n' s a, setAt v (k' :: ks) n = some n' ∧ m' = mset m k (.mk (.map n') s a) ∧
      ((mget m k = none ∧ n = []) ∨ mget m k = some (.mk (.map n) s a)) := by
  rw [setAt] at h
  cases hk : mget m k with
  | none =>
    rw [hk] at h
    simp only [Option.map_eq_some_iff] at h
    obtain ⟨n', h1, h2⟩ := h
    exact ⟨[], n', "<values>", {}, h1, h2.symm, .inl ⟨rfl, rfl⟩⟩
  | some x =>
    obtain ⟨xv, s, a⟩ := x
    rw [hk] at h
    cases xv with
    | map n =>
      simp only [Node.val, Option.map_eq_some_iff] at h
      obtain ⟨n', h1, h2⟩ := h
      exact ⟨n, n', s, a, h1, h2.symm, .inr rfl⟩
    | _ => simp [Node.val] at h

/-- **C47** (visible): a defined value is found at its path. -/
theorem setAt_found {v : Node E} {p : List String} {m m' : List (String × Node E)}
    (h : setAt v p m = some m') : lookupPath p m' = some v := by
  induction p generalizing m m' with
  | nil => simp [setAt] at h
  | cons k ks ih =>
    cases ks with
    | nil =>
      simp only [setAt, Option.some.injEq] at h
      subst h
      simp [lookupPath, mget_mset]
    | cons k' ks =>
      obtain ⟨n, n', s, a, h1, h2, -⟩ := setAt_cons h
      subst h2
      rw [lookupPath_cons, mget_mset]
      simpa using ih h1

/-- The inner fields of the path are maps afterwards. -/
theorem setAt_inner {v : Node E} {p q : List String} {m m' : List (String × Node E)}
    (h : setAt v p m = some m') (hq : q <+: p) (hne : q ≠ p) (h0 : q ≠ []) :
    ∃ n s a, lookupPath q m' = some (.mk (.map n) s a) := by
  induction p generalizing q m m' with
  | nil => simp at hq; exact absurd hq h0
  | cons k ks ih =>
    cases q with
    | nil => exact absurd rfl h0
    | cons j js =>
      rw [List.cons_prefix_cons] at hq
      obtain ⟨rfl, hq⟩ := hq
      cases ks with
      | nil => simp at hq; subst hq; exact absurd rfl hne
      | cons k' ks =>
        obtain ⟨n, n', s, a, h1, h2, -⟩ := setAt_cons h
        subst h2
        cases js with
        | nil => exact ⟨n', s, a, by simp [lookupPath, mget_mset]⟩
        | cons j' js =>
          obtain ⟨x, y, z, hx⟩ := ih h1 hq (by intro he; exact hne (by rw [he])) (by simp)
          exact ⟨x, y, z, by rw [lookupPath_cons, mget_mset]; simpa using hx⟩

/-- **C47** (independence): values at paths unrelated to the defined one are not influenced. -/
theorem setAt_other {v : Node E} {p q : List String} {m m' : List (String × Node E)}
    (h : setAt v p m = some m') (hq : Incomparable p q) : lookupPath q m' = lookupPath q m := by
  induction p generalizing q m m' with
  | nil => exact absurd (List.nil_prefix) hq.1
  | cons k ks ih =>
    cases q with
    | nil => exact absurd (List.nil_prefix) hq.2
    | cons j js =>
      by_cases hjk : k = j
      · subst hjk
        have hq' : Incomparable ks js := by
          constructor
          · intro hp; exact hq.1 (by rw [List.cons_prefix_cons]; exact ⟨rfl, hp⟩)
          · intro hp; exact hq.2 (by rw [List.cons_prefix_cons]; exact ⟨rfl, hp⟩)
        cases ks with
        | nil => exact absurd List.nil_prefix hq'.1
        | cons k' ks =>
          cases js with
          | nil => exact absurd List.nil_prefix hq'.2
          | cons j' js =>
            obtain ⟨n, n', s, a, h1, h2, h3⟩ := setAt_cons h
            subst h2
            rw [lookupPath_cons, lookupPath_cons, mget_mset]
            simp only [if_true]
            rw [ih h1 hq']
            rcases h3 with ⟨h3, rfl⟩ | h3
            · rw [h3]
              cases js <;> simp [lookupPath, mget]
            · rw [h3]
      · have hm : mget m' j = mget m j := by
          cases ks with
          | nil =>
            simp only [setAt, Option.some.injEq] at h
            subst h
            rw [mget_mset]; simp [Ne.symm hjk]
          | cons k' ks =>
            obtain ⟨n, n', s, a, h1, h2, h3⟩ := setAt_cons h
            subst h2
            rw [mget_mset]; simp [Ne.symm hjk]
        cases js with
        | nil => simpa [lookupPath] using hm
        | cons j' js => rw [lookupPath_cons, lookupPath_cons, hm]

/-- **C47** (rejection): a definition is rejected iff an inner field of its path already exists
and is no map. -/
theorem setAt_none_iff {v : Node E} {p : List String} (hp : p ≠ []) (m : List (String × Node E)) :
    setAt v p m = none ↔ Blocked p m := by
  induction p generalizing m with
  | nil => exact absurd rfl hp
  | cons k ks ih =>
    cases ks with
    | nil =>
      simp only [setAt, reduceCtorEq, false_iff]
      rintro ⟨q, x, hq, hne, hl, -⟩
      cases q with
      | nil => simp [lookupPath] at hl
      | cons j js =>
        rw [List.cons_prefix_cons] at hq
        obtain ⟨rfl, hq⟩ := hq
        simp at hq; subst hq; exact hne rfl
    | cons k' ks =>
      rw [setAt]
      cases hk : mget m k with
      | none =>
        simp only [Option.map_eq_none_iff]
        rw [ih (by simp)]
        constructor
        · rintro ⟨q, x, hq, hne, hl, -⟩
          rcases q with _ | ⟨j, _ | ⟨j', js⟩⟩ <;> simp [lookupPath, mget] at hl
        · rintro ⟨q, x, hq, hne, hl, -⟩
          rcases q with _ | ⟨j, js⟩
          · simp [lookupPath] at hl
          · rw [List.cons_prefix_cons] at hq
            obtain ⟨rfl, hq⟩ := hq
            rcases js with _ | ⟨j', js⟩ <;> simp [lookupPath, hk] at hl
      | some x =>
        obtain ⟨xv, s, a⟩ := x
        have key : ∀ (y : Node E), mget m k = some y → (∀ n, y.val ≠ .map n) → Blocked (k :: k' :: ks) m := by
          intro y h1 h2
          exact ⟨[k], y, by simp, by simp, by simpa [lookupPath] using h1, h2⟩
        cases xv with
        | map n =>
          simp only [Node.val, Option.map_eq_none_iff]
          rw [ih (by simp)]
          constructor
          · rintro ⟨q, x, hq, hne, hl, hv⟩
            rcases q with _ | ⟨j, js⟩
            · simp [lookupPath] at hl
            · exact ⟨k :: j :: js, x, by rw [List.cons_prefix_cons]; exact ⟨rfl, hq⟩,
                by intro he; exact hne (by injection he), by rw [lookupPath_cons, hk]; exact hl, hv⟩
          · rintro ⟨q, x, hq, hne, hl, hv⟩
            rcases q with _ | ⟨j, js⟩
            · simp [lookupPath] at hl
            · rw [List.cons_prefix_cons] at hq
              obtain ⟨rfl, hq⟩ := hq
              rcases js with _ | ⟨j', js⟩
              · simp only [lookupPath, hk, Option.some.injEq] at hl
                subst hl
                exact absurd rfl (hv n)
              · rw [lookupPath_cons, hk] at hl
                exact ⟨j' :: js, x, hq, by intro he; exact hne (by rw [he]), hl, hv⟩
        | _ =>
          simp only [Node.val, true_iff]
          exact key _ hk (by intro n; simp [Node.val])

/-! ### the path of a name -/

theorem splitCh_ne_nil (sep : Char) (s : List Char) : splitCh sep s ≠ [] := by
  cases s with
  | nil => simp [splitCh]
  | cons c r =>
    rw [splitCh]
    split
    · simp
    · split <;> simp

/-- put characters in front of the first component -/
def addHead (pre : List Char) : List (List Char) → List (List Char)
  | [] => [pre]
  | c :: r => (pre ++ c) :: r

theorem splitCh_append {sep : Char} {p : List Char} (hp : sep ∉ p) (s : List Char) :
    splitCh sep (p ++ s) = addHead p (splitCh sep s) := by
  induction p with
  | nil =>
    cases h : splitCh sep s with
    | nil => exact absurd h (splitCh_ne_nil _ _)
    | cons a b => simp [addHead, h]
  | cons c p ih =>
    simp only [List.mem_cons, not_or] at hp
    rw [List.cons_append, splitCh, if_neg (Ne.symm hp.1), ih hp.2]
    cases h : splitCh sep s with
    | nil => exact absurd h (splitCh_ne_nil _ _)
    | cons a b => simp [addHead]

theorem splitCh_sep {sep : Char} {p : List Char} (hp : sep ∉ p) (s : List Char) :
    splitCh sep (p ++ sep :: s) = p :: splitCh sep s := by
  rw [splitCh_append hp, splitCh, if_pos rfl]
  simp [addHead]

/-- all backslashes at the end doubled -/
def dbl (p : List Char) : List Char := p ++ List.replicate (trailing p) '\\'

theorem trailing_append_replicate (p : List Char) (n : Nat) :
    trailing (p ++ List.replicate n '\\') = trailing p + n := by
  simp only [trailing, List.reverse_append, List.reverse_replicate]
  rw [List.takeWhile_append_of_pos]
  · simp; omega
  · intro a ha
    have := List.eq_of_mem_replicate ha
    simp [this]

theorem trailing_replicate (n : Nat) : trailing (List.replicate n '\\') = n := by
  have := trailing_append_replicate [] n
  simpa [trailing] using this

theorem trailing_le (p : List Char) : trailing p ≤ p.length := by
  have := (List.takeWhile_sublist (l := p.reverse) (fun c => decide (c = '\\'))).length_le
  simpa [trailing] using this

/-- trailing backslashes do not look across a dot -/
theorem trailing_after_dot (pre p : List Char) : trailing (pre ++ '.' :: p) = trailing p := by
  simp only [trailing, List.reverse_append, List.reverse_cons, List.append_assoc]
  rw [List.takeWhile_append]
  split
  · rename_i h; simp [h]
  · rfl

theorem mem_takeWhile_prop {p : Char → Bool} {l : List Char} {x : Char} (h : x ∈ l.takeWhile p) : p x = true := by
  induction l with
  | nil => simp at h
  | cons a l ih =>
    rw [List.takeWhile_cons] at h
    split at h
    · rcases List.mem_cons.mp h with rfl | h
      · assumption
      · exact ih h
    · simp at h

theorem take_trailing (p : List Char) :
    p.take (p.length - trailing p) ++ List.replicate (trailing p) '\\' = p := by
  have h1 : p.reverse.takeWhile (· = '\\') = List.replicate (trailing p) '\\' := by
    rw [trailing]
    apply List.eq_replicate_of_mem
    intro b hb
    have := mem_takeWhile_prop hb
    simpa using this
  have h2 : p.reverse = List.replicate (trailing p) '\\' ++ p.reverse.drop (trailing p) := by
    conv_lhs => rw [← List.take_append_drop (trailing p) p.reverse]
    congr 1
    rw [← h1]
    conv_lhs => rw [trailing]
    rw [List.prefix_iff_eq_take.mp (List.takeWhile_prefix _)]
    simp
  have h3 := congrArg List.reverse h2
  rw [List.reverse_reverse, List.reverse_append, List.reverse_replicate, List.drop_reverse,
    List.reverse_reverse] at h3
  exact h3.symm

theorem halve_dbl_gen (pre p : List Char) (ht : trailing (pre ++ p) = trailing p) (odd : Nat) (ho : odd < 2) :
    halve (pre ++ dbl p ++ List.replicate odd '\\') = pre ++ p ∧
    trailing (pre ++ dbl p ++ List.replicate odd '\\') % 2 = odd := by
  have e : pre ++ dbl p ++ List.replicate odd '\\' = (pre ++ p) ++ List.replicate (trailing p + odd) '\\' := by
    simp [dbl, List.append_assoc]
  have hl : trailing (pre ++ dbl p ++ List.replicate odd '\\') = 2 * trailing p + odd := by
    rw [e, trailing_append_replicate, ht]; omega
  constructor
  · rw [halve, hl]
    have e2 : (pre ++ dbl p ++ List.replicate odd '\\').length - (2 * trailing p + odd) =
        (pre ++ p).length - trailing (pre ++ p) := by
      rw [e, ht]; simp; omega
    rw [e2, e, List.take_append_of_le_length (by omega), show (2 * trailing p + odd) / 2 = trailing (pre ++ p) by rw [ht]; omega]
    exact take_trailing _
  · rw [hl]; omega

theorem encodeComp_nodot_aux (inner : Bool) (p tail : List Char) (hp : '.' ∉ p)
    (ht : tail = [] ∨ ∃ r, tail = '.' :: r) :
    encodeComp inner (p ++ tail) =
      (if inner = true ∨ tail ≠ [] then dbl p else p) ++ encodeComp inner tail := by
  induction p with
  | nil =>
    simp [dbl, trailing]
  | cons c p ih =>
    simp only [List.mem_cons, not_or] at hp
    rw [List.cons_append, encodeComp, if_neg (Ne.symm hp.1), ih hp.2]
    by_cases hc : c = '\\'
    · subst hc
      -- all of `p` are backslashes or not
      by_cases hall : ∀ x ∈ p, x = '\\'
      · have hpr : p = List.replicate p.length '\\' := List.eq_replicate_of_mem hall
        have hd : (p ++ tail).dropWhile (fun x => decide (x = '\\')) = tail := by
          rw [List.dropWhile_append_of_pos (by intro a ha; simp [hall a ha])]
          rcases ht with rfl | ⟨r, rfl⟩ <;> simp
        rw [hd]
        have htr : trailing ('\\' :: p) = trailing p + 1 := by
          rw [hpr, ← List.replicate_succ, trailing_replicate, trailing_replicate]
        have hdb : dbl ('\\' :: p) = '\\' :: '\\' :: dbl p := by
          rw [dbl, htr, dbl, hpr, trailing_replicate]
          rw [← List.replicate_succ, ← List.replicate_add, ← List.replicate_add, ← List.replicate_succ, ← List.replicate_succ]
          congr 1; omega
        rcases ht with rfl | ⟨r, rfl⟩
        · cases inner <;> simp [hdb]
        · simp [hdb]
      · have htr : trailing ('\\' :: p) = trailing p := by
          simp only [trailing, List.reverse_cons]
          rw [List.takeWhile_append, if_neg]
          intro hlen
          apply hall
          intro x hx
          have h1 : p.reverse.takeWhile (fun x => decide (x = '\\')) = p.reverse :=
            (List.takeWhile_prefix _).eq_of_length hlen
          have := mem_takeWhile_prop (h1 ▸ (List.mem_reverse.mpr hx))
          simpa using this
        have hdb : dbl ('\\' :: p) = '\\' :: dbl p := by rw [dbl, htr]; rfl
        have hh : ∃ y ys, (p ++ tail).dropWhile (fun x => decide (x = '\\')) = y :: ys ∧ y ≠ '.' := by
          clear htr hdb ih
          induction p with
          | nil => exact absurd (by simp) hall
          | cons z p ih2 =>
            simp only [List.mem_cons, not_or] at hp
            by_cases hz : z = '\\'
            · subst hz
              have : ¬ ∀ x ∈ p, x = '\\' := by
                intro h; apply hall; intro x hx
                rcases List.mem_cons.mp hx with rfl | hx
                · rfl
                · exact h x hx
              obtain ⟨y, ys, h1, h2⟩ := ih2 ⟨hp.1, hp.2.2⟩ this
              exact ⟨y, ys, by rw [List.cons_append, List.dropWhile_cons_of_pos (by simp)]; exact h1, h2⟩
            · exact ⟨z, p ++ tail, by rw [List.cons_append, List.dropWhile_cons_of_neg (by simp [hz])],
                Ne.symm hp.2.1⟩
        obtain ⟨y, ys, h1, h2⟩ := hh
        rw [h1]
        simp [h2, hdb]
        split <;> rfl
    · have htr : trailing (c :: p) = trailing p := by
        simp only [trailing, List.reverse_cons]
        rw [List.takeWhile_append]
        split
        · rename_i hlen
          have h1 : p.reverse.takeWhile (fun x => decide (x = '\\')) = p.reverse :=
            (List.takeWhile_prefix _).eq_of_length hlen
          rw [h1]
          simp [hc]
        · rfl
      have hdb : dbl (c :: p) = c :: dbl p := by rw [dbl, htr]; rfl
      simp [hc, hdb]
      split <;> rfl

/-- every list of characters is free of dots or starts with a part free of dots, followed by a dot -/
theorem dot_cases (c : List Char) : '.' ∉ c ∨ ∃ p r, c = p ++ '.' :: r ∧ '.' ∉ p := by
  induction c with
  | nil => left; simp
  | cons x c ih =>
    by_cases hx : x = '.'
    · subst hx; right; exact ⟨[], c, rfl, by simp⟩
    · rcases ih with h | ⟨p, r, rfl, hp⟩
      · left; simp [h, Ne.symm hx]
      · right; exact ⟨x :: p, r, rfl, by simp [hp, Ne.symm hx]⟩

theorem dot_not_mem_dbl {p : List Char} (hp : '.' ∉ p) : '.' ∉ dbl p := by
  simp only [dbl, List.mem_append, not_or]
  exact ⟨hp, by intro h; have := List.eq_of_mem_replicate h; simp at this⟩

/-- `pre` is empty or ends with a dot -/
def DotEnd (pre : List Char) : Prop := pre = [] ∨ ∃ q, pre = q ++ ['.']

theorem DotEnd.trailing {pre : List Char} (h : DotEnd pre) (p : List Char) : trailing (pre ++ p) = trailing p := by
  rcases h with rfl | ⟨q, rfl⟩
  · rfl
  · rw [List.append_assoc]; exact trailing_after_dot q p

theorem normComps_inner (n : Nat) : ∀ (c : List Char), c.length ≤ n → ∀ (pre : List Char) (s : List Char),
    DotEnd pre → pre ++ c ≠ [] →
    normComps (addHead pre (splitCh '.' (encodeComp true c ++ '.' :: s))) =
      (normComps (splitCh '.' s)).map ((pre ++ c) :: ·) := by
  induction n with
  | zero =>
    intro c hc pre s hpre hne
    have : c = [] := List.length_eq_zero_iff.mp (by omega)
    subst this
    rw [encodeComp, List.nil_append, splitCh, if_pos rfl, addHead, List.append_nil]
    rw [List.append_nil] at hne
    cases hs : splitCh '.' s with
    | nil => exact absurd hs (splitCh_ne_nil _ _)
    | cons d r =>
      have h := halve_dbl_gen pre [] (hpre.trailing []) 0 (by omega)
      simp only [dbl, List.append_nil, List.replicate_zero, show trailing ([] : List Char) = 0 by rfl] at h
      rw [normComps, if_neg hne, h.2, h.1]
      simp
  | succ n ih =>
    intro c hc pre s hpre hne
    rcases dot_cases c with hd | ⟨p, r, rfl, hp⟩
    · have he := encodeComp_nodot_aux true c [] hd (.inl rfl)
      simp only [List.append_nil, true_or, if_true, encodeComp] at he
      rw [he, splitCh_sep (dot_not_mem_dbl hd), addHead]
      cases hs : splitCh '.' s with
      | nil => exact absurd hs (splitCh_ne_nil _ _)
      | cons d r =>
        have h := halve_dbl_gen pre c (hpre.trailing c) 0 (by omega)
        simp only [List.replicate_zero, List.append_nil] at h
        have hne' : pre ++ dbl c ≠ [] := by
          intro h0; apply hne
          simp [dbl] at h0 ⊢
          exact ⟨h0.1, h0.2.1⟩
        rw [normComps, if_neg hne', h.2, h.1]
        simp
    · have he := encodeComp_nodot_aux true p ('.' :: r) hp (.inr ⟨r, rfl⟩)
      simp only [true_or, if_true] at he
      rw [he, encodeComp, if_pos rfl]
      have e2 : dbl p ++ '\\' :: '.' :: encodeComp true r ++ '.' :: s =
          (dbl p ++ List.replicate 1 '\\') ++ '.' :: (encodeComp true r ++ '.' :: s) := by simp
      have hnd : '.' ∉ dbl p ++ List.replicate 1 '\\' := by
        simp [dot_not_mem_dbl hp]
      rw [e2, splitCh_sep hnd, addHead]
      have h := halve_dbl_gen pre p (hpre.trailing p) 1 (by omega)
      rw [← List.append_assoc]
      cases hs : splitCh '.' (encodeComp true r ++ '.' :: s) with
      | nil => exact absurd hs (splitCh_ne_nil _ _)
      | cons d r' =>
        rw [normComps, if_neg (by simp), h.2, if_pos rfl, h.1]
        have := ih r (by simp at hc; omega) (pre ++ p ++ ['.']) s (.inr ⟨_, rfl⟩) (by simp)
        rw [hs, addHead] at this
        simp only [List.append_assoc, List.cons_append, List.nil_append] at this ⊢
        exact this

theorem normComps_last (n : Nat) : ∀ (c : List Char), c.length ≤ n → ∀ (pre : List Char), DotEnd pre →
    normComps (addHead pre (splitCh '.' (encodeComp false c))) = some [pre ++ c] := by
  induction n with
  | zero =>
    intro c hc pre hpre
    have : c = [] := List.length_eq_zero_iff.mp (by omega)
    subst this
    simp [encodeComp, splitCh, addHead, normComps]
  | succ n ih =>
    intro c hc pre hpre
    rcases dot_cases c with hd | ⟨p, r, rfl, hp⟩
    · have he := encodeComp_nodot_aux false c [] hd (.inl rfl)
      simp only [List.append_nil, encodeComp] at he
      have hs := splitCh_append hd []
      simp only [List.append_nil] at hs
      rw [he]
      simp [hs, splitCh, addHead, normComps]
    · have he := encodeComp_nodot_aux false p ('.' :: r) hp (.inr ⟨r, rfl⟩)
      simp only [ne_eq, reduceCtorEq, not_false_iff, or_true, if_true] at he
      rw [he, encodeComp, if_pos rfl]
      have e2 : dbl p ++ '\\' :: '.' :: encodeComp false r =
          (dbl p ++ List.replicate 1 '\\') ++ '.' :: encodeComp false r := by simp
      have hnd : '.' ∉ dbl p ++ List.replicate 1 '\\' := by
        simp [dot_not_mem_dbl hp]
      rw [e2, splitCh_sep hnd, addHead]
      have h := halve_dbl_gen pre p (hpre.trailing p) 1 (by omega)
      rw [← List.append_assoc]
      cases hs : splitCh '.' (encodeComp false r) with
      | nil => exact absurd hs (splitCh_ne_nil _ _)
      | cons d r' =>
        rw [normComps, if_neg (by simp), h.2, if_pos rfl, h.1]
        have := ih r (by simp at hc; omega) (pre ++ p ++ ['.']) (.inr ⟨_, rfl⟩)
        rw [hs, addHead] at this
        simp only [List.append_assoc, List.cons_append, List.nil_append] at this ⊢
        exact this

theorem addHead_nil (s : List Char) : addHead [] (splitCh '.' s) = splitCh '.' s := by
  cases h : splitCh '.' s with
  | nil => exact absurd h (splitCh_ne_nil _ _)
  | cons a b => rfl

/-- **C47** (escaping): every path whose inner components are not empty is denoted by a name:
escaped dots are part of a field name, other dots separate. -/
theorem path_of_name (cs : List (List Char)) (h0 : cs ≠ []) (hi : ∀ c ∈ cs.dropLast, c ≠ []) :
    valuePath (String.ofList (encodePath cs)) = some (cs.map String.ofList) := by
  suffices h : normComps (splitCh '.' (encodePath cs)) = some cs by
    simp [valuePath, h]
  induction cs with
  | nil => exact absurd rfl h0
  | cons c cs ih =>
    cases cs with
    | nil =>
      have := normComps_last c.length c (Nat.le_refl _) [] (.inl rfl)
      rw [addHead_nil] at this
      simpa [encodePath] using this
    | cons d r =>
      have := normComps_inner c.length c (Nat.le_refl _) [] (encodePath (d :: r)) (.inl rfl)
        (by simpa using hi c (by simp))
      rw [addHead_nil] at this
      rw [encodePath, this, ih (by simp) (fun x hx => hi x (by simp [hx]))]
      simp

/-- **C47** (plain names): a name without backslashes denotes the fields between its dots;
it is rejected iff an inner one is empty. -/
theorem path_plain (s : List Char) (hs : '\\' ∉ s) :
    valuePath (String.ofList s) =
      if [] ∈ (splitCh '.' s).dropLast then none else some ((splitCh '.' s).map String.ofList) := by
  have hm : ∀ p ∈ splitCh '.' s, '\\' ∉ p := by
    clear * - hs
    induction s with
    | nil => simp [splitCh]
    | cons c r ih =>
      simp only [List.mem_cons, not_or] at hs
      have ih := ih hs.2
      rw [splitCh]
      split
      · intro p hp
        rcases List.mem_cons.mp hp with rfl | hp
        · simp
        · exact ih p hp
      · cases h : splitCh '.' r with
        | nil => simp [hs.1]
        | cons a b =>
          rw [h] at ih
          intro p hp
          rcases List.mem_cons.mp hp with rfl | hp
          · simp only [List.mem_cons, not_or]
            exact ⟨hs.1, ih a (by simp)⟩
          · exact ih p (by simp [hp])
  have key : ∀ l : List (List Char), (∀ p ∈ l, '\\' ∉ p) →
      normComps l = if [] ∈ l.dropLast then none else some l := by
    intro l
    induction l with
    | nil => intro _; simp [normComps]
    | cons c l ih =>
      intro hl
      cases l with
      | nil => simp [normComps]
      | cons d r =>
        rw [normComps]
        by_cases hc : c = []
        · subst hc; simp
        · have ht : trailing c = 0 := by
            rw [trailing]
            cases hr : c.reverse with
            | nil => rfl
            | cons x xs =>
              have hx : x ∈ c := by rw [← List.mem_reverse, hr]; simp
              have : x ≠ '\\' := by rintro rfl; exact hl c (by simp) hx
              simp [this]
          rw [if_neg hc, ht, if_neg (by decide), ih (fun p hp => hl p (by simp [hp])), halve, ht]
          simp only [List.dropLast_cons_cons, List.mem_cons, Ne.symm hc, false_or]
          split
          · rfl
          · simp
  rw [valuePath, String.toList_ofList, key _ hm]
  split <;> simp

/-! ### all definitions -/

/-- the paths of the definitions -/
def defPaths (defs : List (String × List Char)) : List (Option (List String)) := defs.map (fun d => valuePath d.1)

theorem valuePath_ne_nil {k : String} {p : List String} (h : valuePath k = some p) : p ≠ [] := by
  rw [valuePath] at h
  simp only [Option.map_eq_some_iff] at h
  obtain ⟨cs, h1, rfl⟩ := h
  have : ∀ n, ∀ l : List (List Char), l.length ≤ n → l ≠ [] → ∀ r, normComps l = some r → r ≠ [] := by
    intro n
    induction n with
    | zero => intro l hl h0; exact absurd (List.length_eq_zero_iff.mp (by omega)) h0
    | succ n ih =>
      intro l hl h0 r hr
      rcases l with _ | ⟨c, _ | ⟨d, l⟩⟩
      · exact absurd rfl h0
      · simp [normComps] at hr; subst hr; simp
      · rw [normComps] at hr
        split at hr
        · simp at hr
        · split at hr
          · exact ih _ (by simp at hl ⊢; omega) (by simp) r hr
          · simp only [Option.map_eq_some_iff] at hr
            obtain ⟨x, -, rfl⟩ := hr
            simp
  have := this _ _ (Nat.le_refl _) (splitCh_ne_nil _ _) cs h1
  simpa using this

theorem not_blocked_after {v : Node E} {p q : List String} {m m' : List (String × Node E)}
    (h : setAt v p m = some m') (hpq : Incomparable p q) (hq : ¬ Blocked q m) : ¬ Blocked q m' := by
  rintro ⟨r, x, hr, hne, hl, hx⟩
  have hr0 : r ≠ [] := by rintro rfl; simp [lookupPath] at hl
  by_cases hpr : p <+: r
  · exact hpq.1 (hpr.trans hr)
  · by_cases hrp : r <+: p
    · have : r ≠ p := by rintro rfl; exact hpr (List.prefix_refl _)
      obtain ⟨n, s, a, hn⟩ := setAt_inner h hrp this hr0
      rw [hn] at hl
      injection hl with hl
      subst hl
      exact hx n rfl
    · rw [setAt_other h ⟨hpr, hrp⟩] at hl
      exact hq ⟨r, x, hr, hne, hl, hx⟩

/-- **C47** (any number of definitions): if no definition denotes a field of another one, and
no path is blocked by the given binding, then all definitions are accepted in every order, each
value is found at its path, and fields at all other unrelated paths are those of the binding. -/
theorem values_visible (defs : List (String × List Char)) (m : List (String × Node E))
    (hp : ∀ d ∈ defs, ∃ p, valuePath d.1 = some p ∧ ¬ Blocked p m)
    (hinc : defs.Pairwise (fun d e => ∀ p q, valuePath d.1 = some p → valuePath e.1 = some q → Incomparable p q)) :
    ∃ m', addValues defs m = some m' ∧
      (∀ d ∈ defs, ∀ p, valuePath d.1 = some p → lookupPath p m' = some (valueNode d.2)) ∧
      (∀ q, (∀ d ∈ defs, ∀ p, valuePath d.1 = some p → Incomparable p q) → lookupPath q m' = lookupPath q m) := by
  induction defs generalizing m with
  | nil => exact ⟨m, rfl, by simp, by simp⟩
  | cons d defs ih =>
    obtain ⟨k, v⟩ := d
    obtain ⟨p, hkp, hb⟩ := hp (k, v) (by simp)
    simp only at hkp
    have hp0 := valuePath_ne_nil hkp
    rw [List.pairwise_cons] at hinc
    cases h1 : setAt (valueNode v) p m with
    | none => exact absurd ((setAt_none_iff hp0 m).mp h1) hb
    | some m1 =>
      obtain ⟨m', h2, h3, h4⟩ := ih m1 (by
        intro e he
        obtain ⟨q, hq, hbq⟩ := hp e (by simp [he])
        exact ⟨q, hq, not_blocked_after h1 (hinc.1 e he p q hkp hq) hbq⟩) hinc.2
      refine ⟨m', by simp [addValues, addValue, hkp, h1, h2], ?_, ?_⟩
      · intro e he q hq
        rcases List.mem_cons.mp he with rfl | he
        · simp only at hq
          rw [hkp] at hq
          injection hq with hq
          subst hq
          rw [h4 p (fun e he q hq => ?_)]
          · exact setAt_found h1
          · have := hinc.1 e he p q hkp hq
            exact ⟨this.2, this.1⟩
        · exact h3 e he q hq
      · intro q hq
        rw [h4 q (fun e he => hq e (by simp [he])), setAt_other h1 (hq (k, v) (by simp) p hkp)]

/-- **C47** (order): under the same conditions, every order of processing the definitions gives
the same values at all defined paths, and leaves all unrelated paths as they are. -/
theorem values_order_independent (defs defs' : List (String × List Char)) (hperm : defs.Perm defs')
    (m : List (String × Node E))
    (hp : ∀ d ∈ defs, ∃ p, valuePath d.1 = some p ∧ ¬ Blocked p m)
    (hinc : defs.Pairwise (fun d e => ∀ p q, valuePath d.1 = some p → valuePath e.1 = some q → Incomparable p q)) :
    ∃ m1 m2, addValues defs m = some m1 ∧ addValues defs' m = some m2 ∧
      ∀ q, ((∃ d ∈ defs, valuePath d.1 = some q) ∨ ∀ d ∈ defs, ∀ p, valuePath d.1 = some p → Incomparable p q) →
        lookupPath q m1 = lookupPath q m2 := by
  obtain ⟨m1, h1, h2, h3⟩ := values_visible defs m hp hinc
  obtain ⟨m2, g1, g2, g3⟩ := values_visible defs' m (fun d hd => hp d (hperm.mem_iff.mpr hd))
    ((hperm.pairwise_iff (by
      intro d e h p q hp hq
      have := h q p hq hp
      exact ⟨this.2, this.1⟩)).mp hinc)
  refine ⟨m1, m2, h1, g1, ?_⟩
  rintro q (⟨d, hd, hq⟩ | hq)
  · rw [h2 d hd q hq, g2 d (hperm.mem_iff.mp hd) q hq]
  · rw [h3 q hq, g3 q (fun d hd => hq d (hperm.mem_iff.mpr hd))]

/-- **C47** (arguments): the definitions are rejected iff one of them has not exactly one `=`
or an empty name; otherwise the last definition of a name wins. -/
theorem createValues_spec (args : List (List Char)) :
    (createValues args = none ↔ ∃ s ∈ args, valueDef s = none) ∧
    ∀ r, createValues args = some r → ∀ k, mget r (String.ofList k) =
      ((args.filterMap valueDef).filter (fun d => d.1 = k)).getLast?.map Prod.snd := by
  have key : ∀ (args : List (List Char)) (r0 : List (String × List Char)),
      (createValues.go r0 args = none ↔ ∃ s ∈ args, valueDef s = none) ∧
      ∀ r, createValues.go r0 args = some r → ∀ k, mget r (String.ofList k) =
        (((args.filterMap valueDef).filter (fun d => d.1 = k)).getLast?.map Prod.snd).or (mget r0 (String.ofList k)) := by
    intro args
    induction args with
    | nil =>
      intro r0
      constructor
      · simp [createValues.go]
      · intro r hr k
        simp only [createValues.go, Option.some.injEq] at hr
        simp [hr]
    | cons s args ih =>
      intro r0
      rw [createValues.go]
      cases hs : valueDef s with
      | none => simp [hs]
      | some d =>
        obtain ⟨k1, v1⟩ := d
        obtain ⟨i1, i2⟩ := ih (mset r0 (String.ofList k1) v1)
        constructor
        · simp only [i1, List.mem_cons, exists_eq_or_imp, hs, reduceCtorEq, false_or]
        · intro r hr k
          rw [i2 r hr k, mget_mset]
          simp only [List.filterMap_cons, hs, List.filter_cons]
          by_cases hk : k1 = k
          · subst hk
            simp only [decide_true, if_true]
            cases hl : (List.filter (fun d => decide (d.1 = k1)) (List.filterMap valueDef args)).getLast? with
            | none =>
              rw [List.getLast?_eq_none_iff] at hl
              simp [hl]
            | some y => simp [List.getLast?_cons, hl]
          · have : String.ofList k1 ≠ String.ofList k := by
              intro h; exact hk (by simpa using congrArg String.toList h)
            simp [hk, Ne.symm this]
  have := key args []
  refine ⟨this.1, fun r hr k => ?_⟩
  rw [this.2 r hr k]
  simp [mget]

/-- **C47** (exception): if one definition denotes a field of another one, the outcome depends
on the (random) iteration order: `-D a=1 -D a.b=2` is accepted in one order and rejected in the
other one. -/
theorem values_order_defect :
    (addValues [("a.b", ['2']), ("a", ['1'])] ([] : List (String × Node E))).isSome ∧
    addValues [("a", ['1']), ("a.b", ['2'])] ([] : List (String × Node E)) = none := by
  have h1 : valuePath "a.b" = some ["a", "b"] := by decide +kernel
  have h2 : valuePath "a" = some ["a"] := by decide +kernel
  have h3 : parseInt (String.ofList ['1']) = some 1 := by decide +kernel
  constructor
  · simp [addValues, addValue, h1, h2, setAt, mget, mset]
  · simp [addValues, addValue, h1, h2, setAt, mget, mset, valueNode, h3, Node.new, Node.val]

/-- two definitions, one of them with an escaped dot -/
example : valuePath "a\\.b.c" = some ["a.b", "c"] ∧ valuePath "x" = some ["x"] ∧
    encodePath [['a', '.', 'b'], ['c', '\\']] = "a\\.b.c\\".toList ∧
    Incomparable ["a.b", "c"] ["x"] := by
  refine ⟨by decide +kernel, by decide +kernel, by decide +kernel, ?_, ?_⟩ <;> decide

end Spiff
