import Verif.Lemmas.Merge
/-
Plain documents: after one pass the document is stable (later passes only flag lists).
-/
namespace Spiff
open Spec (Doc Sel)
variable {E : Type}

/-- a scalar is consistent with the stubs -/
def leafOK (stubs : List (Node E)) (so : Bool) (p : List String) (n : Node E) : Prop :=
  so = true → findInStubs false stubs p = none ∨ findInStubs false stubs p = some n

mutual
/-- No scalar would be changed by another pass. -/
def Stab (stubs : List (Node E)) (so : Bool) (p : List String) : Node E → Prop
  | .mk v s a => StabV stubs so p s a v
termination_by structural n => n
def StabV (stubs : List (Node E)) (so : Bool) (p : List String) (s : String) (a : Ann) : Val E → Prop
  | .map m => StabM stubs p m
  | .list l => StabL stubs (uniqN l) p 0 l
  | .nil => leafOK stubs so p (.mk .nil s a)
  | .bool b => leafOK stubs so p (.mk (.bool b) s a)
  | .int b => leafOK stubs so p (.mk (.int b) s a)
  | .float b => leafOK stubs so p (.mk (.float b) s a)
  | .str b => leafOK stubs so p (.mk (.str b) s a)
  | .expr _ => True
  | .templ _ => True
  | .lambda _ => True
termination_by structural n => n
def StabM (stubs : List (Node E)) (p : List String) : List (String × Node E) → Prop
  | [] => True
  | (k, n) :: r => Stab stubs true (p ++ [k]) n ∧ StabM stubs p r
termination_by structural n => n
def StabL (stubs : List (Node E)) (u : Bool) (p : List String) (i : Nat) : List (Node E) → Prop
  | [] => True
  | n :: r => Stab stubs false (p ++ [entryStep u i n]) n ∧ StabL stubs u p (i + 1) r
termination_by structural n => n
end

mutual
/-- Set the list flags as a pass does. -/
def markN (stubs : List (Node E)) (p : List String) : Node E → Node E
  | .mk v s a => markV stubs p s a v
termination_by structural n => n
def markV (stubs : List (Node E)) (p : List String) (s : String) (a : Ann) : Val E → Node E
  | .map m => .mk (.map (markM stubs p m)) s a
  | .list l => .mk (.list (markL stubs (uniqN l) p 0 l)) s
      (if (findInStubs false stubs p).isSome then bareList else a)
  | .nil => .mk .nil s a
  | .bool b => .mk (.bool b) s a
  | .int b => .mk (.int b) s a
  | .float b => .mk (.float b) s a
  | .str b => .mk (.str b) s a
  | .expr b => .mk (.expr b) s a
  | .templ b => .mk (.templ b) s a
  | .lambda b => .mk (.lambda b) s a
termination_by structural n => n
def markM (stubs : List (Node E)) (p : List String) : List (String × Node E) → List (String × Node E)
  | [] => []
  | (k, n) :: r => (k, markN stubs (p ++ [k]) n) :: markM stubs p r
termination_by structural n => n
def markL (stubs : List (Node E)) (u : Bool) (p : List String) (i : Nat) : List (Node E) → List (Node E)
  | [] => []
  | n :: r => markN stubs (p ++ [entryStep u i n]) n :: markL stubs u p (i + 1) r
termination_by structural n => n
end

theorem mget_markM (stubs : List (Node E)) (p : List String) (m : List (String × Node E)) (k : String) :
    mget (markM stubs p m) k = (mget m k).map (markN stubs (p ++ [k])) := by
  induction m with
  | nil => rfl
  | cons e r ih =>
    obtain ⟨k', n⟩ := e
    simp only [markM, mget]
    split
    · next h => subst h; rfl
    · exact ih

theorem mget_ovM (stubs : List (Node E)) (p : List String) (m : List (String × Node E)) (k : String) :
    mget (ovM stubs p m) k = (mget m k).map (ovN stubs true (p ++ [k])) := by
  induction m with
  | nil => rfl
  | cons e r ih =>
    obtain ⟨k', n⟩ := e
    simp only [ovM, mget]
    split
    · next h => subst h; rfl
    · exact ih

theorem nameOfN_mark (stubs : List (Node E)) (p : List String) (n : Node E) :
    nameOfN (markN stubs p n) = nameOfN n := by
  obtain ⟨v, s, a⟩ := n
  cases v <;> simp only [markN, markV, nameOfN, Node.val]
  next m =>
    rw [mget_markM]
    cases mget m "name" with
    | none => rfl
    | some x =>
      obtain ⟨xv, xs, xa⟩ := x
      cases xv <;> rfl

theorem entryStep_mark (stubs : List (Node E)) (p : List String) (u : Bool) (i : Nat) (n : Node E) :
    entryStep u i (markN stubs p n) = entryStep u i n := by
  simp [entryStep, nameOfN_mark]

theorem map_nameOfN_markL (stubs : List (Node E)) (u : Bool) (p : List String) (i : Nat) (l : List (Node E)) :
    (markL stubs u p i l).map nameOfN = l.map nameOfN := by
  induction l generalizing i with
  | nil => rfl
  | cons n r ih => simp [markL, nameOfN_mark, ih]

theorem uniqN_names (l : List (Node E)) :
    uniqN l = ((l.map nameOfN).all Option.isSome && decide (l.map nameOfN).Nodup) := by
  simp [uniqN, List.all_map, Function.comp_def]

theorem uniqN_markL (stubs : List (Node E)) (u : Bool) (p : List String) (i : Nat) (l : List (Node E)) :
    uniqN (markL stubs u p i l) = uniqN l := by
  rw [uniqN_names, uniqN_names, map_nameOfN_markL]

/-- On stable documents a pass is `markN`; `markN` keeps stability and is idempotent
and does not change the data. -/
theorem stab_mark (stubs : List (Node E)) (n : Node E) : ∀ so p, Stab stubs so p n →
    ovN stubs so p n = markN stubs p n ∧ Stab stubs so p (markN stubs p n) ∧
    markN stubs p (markN stubs p n) = markN stubs p n := by
  refine Node.rec
    (motive_1 := fun v => ∀ so p s a, StabV stubs so p s a v →
      ovV stubs so p s a v = markV stubs p s a v ∧ Stab stubs so p (markV stubs p s a v) ∧
      markN stubs p (markV stubs p s a v) = markV stubs p s a v)
    (motive_2 := fun n => ∀ so p, Stab stubs so p n →
      ovN stubs so p n = markN stubs p n ∧ Stab stubs so p (markN stubs p n) ∧
      markN stubs p (markN stubs p n) = markN stubs p n)
    (motive_3 := fun l => ∀ u p i, StabL stubs u p i l →
      ovL stubs u p i l = markL stubs u p i l ∧ StabL stubs u p i (markL stubs u p i l) ∧
      markL stubs u p i (markL stubs u p i l) = markL stubs u p i l)
    (motive_4 := fun m => ∀ p, StabM stubs p m →
      ovM stubs p m = markM stubs p m ∧ StabM stubs p (markM stubs p m) ∧
      markM stubs p (markM stubs p m) = markM stubs p m)
    (motive_5 := fun e => ∀ so p, Stab stubs so p e.2 →
      ovN stubs so p e.2 = markN stubs p e.2 ∧ Stab stubs so p (markN stubs p e.2) ∧
      markN stubs p (markN stubs p e.2) = markN stubs p e.2)
    ?_ ?_ ?_ ?_ ?_ ?_ ?_ ?_ ?_ ?_ ?_ ?_ ?_ ?_ ?_ ?_ n
  · intro so p s a h
    refine ⟨?_, h, rfl⟩
    cases so
    · rfl
    · rcases h rfl with h | h <;> simp [ovV, markV, h]
  · intro b so p s a h
    refine ⟨?_, h, rfl⟩
    cases so
    · rfl
    · rcases h rfl with h | h <;> simp [ovV, markV, h]
  · intro b so p s a h
    refine ⟨?_, h, rfl⟩
    cases so
    · rfl
    · rcases h rfl with h | h <;> simp [ovV, markV, h]
  · intro b so p s a h
    refine ⟨?_, h, rfl⟩
    cases so
    · rfl
    · rcases h rfl with h | h <;> simp [ovV, markV, h]
  · intro b so p s a h
    refine ⟨?_, h, rfl⟩
    cases so
    · rfl
    · rcases h rfl with h | h <;> simp [ovV, markV, h]
  · intro l ih so p s a h
    simp only [StabV] at h
    obtain ⟨h1, h2, h3⟩ := ih _ _ _ h
    refine ⟨?_, ?_, ?_⟩
    · simp only [ovV, markV, h1]
    · simp only [markV, Stab, StabV, uniqN_markL]; exact h2
    · simp only [markV, markN, uniqN_markL, h3]
      split <;> rfl
  · intro m ih so p s a h
    simp only [StabV] at h
    obtain ⟨h1, h2, h3⟩ := ih _ h
    refine ⟨?_, ?_, ?_⟩
    · simp only [ovV, markV, h1]
    · simp only [markV, Stab, StabV]; exact h2
    · simp only [markV, markN, h3]
  · intro e so p s a h; exact ⟨rfl, h, rfl⟩
  · intro e _ so p s a h; exact ⟨rfl, h, rfl⟩
  · intro e so p s a h; exact ⟨rfl, h, rfl⟩
  · intro v s a ih so p h; exact ih so p s a h
  · intro u p i h; exact ⟨rfl, h, rfl⟩
  · intro n l ih1 ih2 u p i h
    simp only [StabL] at h
    obtain ⟨a1, a2, a3⟩ := ih1 _ _ h.1
    obtain ⟨b1, b2, b3⟩ := ih2 _ _ _ h.2
    refine ⟨?_, ?_, ?_⟩
    · simp only [ovL, markL, a1, b1]
    · simp only [markL, StabL, entryStep_mark]; exact ⟨a2, b2⟩
    · simp only [markL, entryStep_mark, a3, b3]
  · intro p h; exact ⟨rfl, h, rfl⟩
  · intro e r ih1 ih2 p h
    obtain ⟨k, n⟩ := e
    simp only [StabM] at h
    obtain ⟨a1, a2, a3⟩ := ih1 _ _ h.1
    obtain ⟨b1, b2, b3⟩ := ih2 _ h.2
    simp only at a1 a2 a3
    refine ⟨?_, ?_, ?_⟩
    · simp only [ovM, markM, a1, b1]
    · simp only [markM, StabM]; exact ⟨a2, b2⟩
    · simp only [markM, a3, b3]
  · intro k n ih so p h; exact ih so p h

theorem erase_mark (stubs : List (Node E)) (n : Node E) : ∀ p, erase (markN stubs p n) = erase n := by
  refine Node.rec
    (motive_1 := fun v => ∀ p s a, erase (markV stubs p s a v) = eraseV v)
    (motive_2 := fun n => ∀ p, erase (markN stubs p n) = erase n)
    (motive_3 := fun l => ∀ u p i, eraseL (markL stubs u p i l) = eraseL l)
    (motive_4 := fun m => ∀ p, eraseM (markM stubs p m) = eraseM m)
    (motive_5 := fun e => ∀ p, erase (markN stubs p e.2) = erase e.2)
    ?_ ?_ ?_ ?_ ?_ ?_ ?_ ?_ ?_ ?_ ?_ ?_ ?_ ?_ ?_ ?_ n
  · intro p s a; rfl
  · intro _ p s a; rfl
  · intro _ p s a; rfl
  · intro _ p s a; rfl
  · intro _ p s a; rfl
  · intro l ih p s a; simp only [markV, erase, eraseV, ih]
  · intro l ih p s a; simp only [markV, erase, eraseV, ih]
  · intro _ p s a; rfl
  · intro _ _ p s a; rfl
  · intro _ p s a; rfl
  · intro v s a ih p; exact ih p s a
  · intro u p i; rfl
  · intro n l ih1 ih2 u p i; simp only [markL, eraseL, ih1, ih2]
  · intro p; rfl
  · intro e r ih1 ih2 p
    obtain ⟨k, n⟩ := e
    simp only [markM, eraseM, ih2]
    rw [ih1 (p ++ [k])]
  · intro k n ih p; exact ih p

/-! #### values found in stubs are stable -/

theorem findR_append {ctl raw : Bool} (n : Node E) (p q : List String) :
    findR ctl raw n (p ++ q) = match findR ctl raw n p with
      | .found x => findR ctl raw x q
      | .missing => .missing
      | .panic => .panic := by
  induction p generalizing n with
  | nil => rfl
  | cons s r ih =>
    simp only [List.cons_append, findR]
    cases nextStep ctl raw s n with
    | found x => exact ih x
    | missing => rfl
    | panic => rfl

theorem find_append {ctl : Bool} (n : Node E) (p q : List String) :
    find ctl n (p ++ q) = (find ctl n p).bind (fun x => find ctl x q) := by
  unfold find
  rw [findR_append]
  cases findR ctl false n p <;> rfl

theorem findInStubs_step {L : Lang E} {stubs : List (Node E)} (hs : ∀ s ∈ stubs, Plain L s) {p : List String}
    {q : String} {o x : Node E} (h : findInStubs false stubs p = some o)
    (hx : nextStep false false q o = .found x) : findInStubs false stubs (p ++ [q]) = some x := by
  rw [findInStubs_eq hs] at h ⊢
  induction stubs with
  | nil => simp at h
  | cons s r ih =>
    rw [List.findSome?_cons] at h ⊢
    rw [find_append]
    cases hf : find false s p with
    | none => rw [hf] at h; simpa using ih (fun s hs' => hs s (List.mem_cons_of_mem _ hs')) h
    | some y =>
      rw [hf] at h
      cases h
      simp [find, findR, hx, Look.toOption]

theorem findNamed_unique {L : Lang E} {l : List (Node E)} (hp : PlainL L l) (hd : (l.map nameOfN).Nodup)
    {n : Node E} (hn : n ∈ l) {s : String} (hns : nameOfN n = some s) :
    findNamed false false l "name" s = some n := by
  induction l with
  | nil => simp at hn
  | cons y r ih =>
    simp only [PlainL] at hp
    simp only [List.map_cons, List.nodup_cons] at hd
    have key : ∀ (y : Node E), Plain L y → nameOfN y = some s → findNamed false false (y :: r) "name" s = some y := by
      intro y hy hys
      obtain ⟨v, ys, ya⟩ := y
      cases v <;> simp only [nameOfN, Node.val] at hys <;> try contradiction
      next m =>
        simp only [Plain, PlainV] at hy
        unfold findNamed
        simp only [Node.val, stepMap_plain hy.2.2]
        split at hys
        · next hg => rw [hg]; cases hys; simp
        · contradiction
    have key2 : Plain L y → nameOfN y ≠ some s →
        findNamed false false (y :: r) "name" s = findNamed false false r "name" s := by
      intro hy hys
      obtain ⟨v, ys, ya⟩ := y
      rw [findNamed.eq_def]
      cases v <;> simp only [Node.val]
      next m =>
        simp only [Plain, PlainV] at hy
        simp only [stepMap_plain hy.2.2]
        simp only [nameOfN, Node.val] at hys
        split
        · next hg =>
          rw [hg] at hys
          split
          · next h => simp [h] at hys
          · rfl
        · rfl
    rcases List.mem_cons.1 hn with rfl | hn
    · exact key _ hp.1 hns
    · rw [key2 hp.1 (fun he => hd.1 (by rw [he, ← hns]; exact List.mem_map.2 ⟨n, hn, rfl⟩))]
      exact ih hp.2 hd.2 hn

theorem nextStep_entry {L : Lang E} {l : List (Node E)} {s : String} {a : Ann} (hp : Plain L (.mk (.list l) s a))
    (hlen : l.length < 2^63) {i : Nat} {n : Node E} (hi : l[i]? = some n) :
    nextStep false false (entryStep (uniqN l) i n) (.mk (.list l) s a) = .found n := by
  have hkn := keyName_plain hp
  simp only [Plain, PlainV] at hp
  unfold nextStep
  simp only [Node.val, isListResolved_plain hp.2, Bool.not_true, Bool.and_false, Bool.false_eq_true, if_false, hkn]
  unfold entryStep stepList
  cases hu : uniqN l with
  | false =>
    simp only [listIndex_idx]
    have := indexList_nat l i hlen
    rw [hi] at this
    exact toOption_some this
  | true =>
    have hmem := List.mem_of_getElem? hi
    simp only [uniqN, Bool.and_eq_true, List.all_eq_true, decide_eq_true_eq] at hu
    obtain ⟨nm, hnm⟩ := Option.isSome_iff_exists.1 (hu.1 n hmem)
    simp only [hnm, listIndex_named, splitColon_named, ofList_name, String.ofList_toList]
    rw [findNamed_unique hp.2 hu.2 hmem hnm]

theorem stab_found {L : Lang E} {stubs : List (Node E)} (hs : ∀ s ∈ stubs, Plain L s) (o : Node E) :
    ∀ so p, Plain L o → Simple (erase o) → findInStubs false stubs p = some o → Stab stubs so p o := by
  refine Node.rec
    (motive_1 := fun v => ∀ so p s a, PlainV L a v → Simple (eraseV v) →
      findInStubs false stubs p = some (.mk v s a) → StabV stubs so p s a v)
    (motive_2 := fun n => ∀ so p, Plain L n → Simple (erase n) →
      findInStubs false stubs p = some n → Stab stubs so p n)
    (motive_3 := fun l => ∀ u p i, PlainL L l → SimpleL (eraseL l) →
      (∀ j n, l[j]? = some n → findInStubs false stubs (p ++ [entryStep u (i + j) n]) = some n) →
      StabL stubs u p i l)
    (motive_4 := fun m => ∀ p, PlainM L m → SimpleM (eraseM m) →
      (∀ e ∈ m, findInStubs false stubs (p ++ [e.1]) = some e.2) → StabM stubs p m)
    (motive_5 := fun e => ∀ so p, Plain L e.2 → Simple (erase e.2) →
      findInStubs false stubs p = some e.2 → Stab stubs so p e.2)
    ?_ ?_ ?_ ?_ ?_ ?_ ?_ ?_ ?_ ?_ ?_ ?_ ?_ ?_ ?_ ?_ o
  · intro so p s a _ _ h _; exact Or.inr h
  · intro _ so p s a _ _ h _; exact Or.inr h
  · intro _ so p s a _ _ h _; exact Or.inr h
  · intro _ so p s a _ _ h _; exact Or.inr h
  · intro _ so p s a _ _ h _; exact Or.inr h
  · intro l ih so p s a hp hsi h
    have hp' : Plain L (.mk (.list l) s a) := hp
    simp only [PlainV] at hp
    simp only [eraseV, Simple, eraseL_eq, List.length_map] at hsi
    simp only [StabV]
    refine ih _ _ _ hp.2 (by rw [eraseL_eq]; exact hsi.2) (fun j n hj => ?_)
    rw [Nat.zero_add]
    exact findInStubs_step hs h (nextStep_entry hp' hsi.1 hj)
  · intro m ih so p s a hp hsi h
    simp only [PlainV] at hp
    simp only [eraseV, Simple] at hsi
    simp only [StabV]
    refine ih _ hp.2.2 hsi (fun e he => ?_)
    refine findInStubs_step hs h ?_
    simp only [nextStep, Node.val, stepMap_plain hp.2.2, mget_of_mem hp.2.1 (show (e.1, e.2) ∈ m from he)]
  · intro e so p s a h; exact h.elim
  · intro e _ so p s a h; exact h.elim
  · intro e so p s a h; exact h.elim
  · intro v s a ih so p hp hsi h; exact ih so p s a hp hsi h
  · intro u p i _ _ _; trivial
  · intro n l ih1 ih2 u p i hp hsi h
    simp only [PlainL] at hp
    simp only [eraseL, SimpleL] at hsi
    refine ⟨ih1 _ _ hp.1 hsi.1 (h 0 n rfl), ih2 _ _ _ hp.2 hsi.2 (fun j x hj => ?_)⟩
    have := h (j + 1) x (by simpa using hj)
    rw [show i + (j + 1) = i + 1 + j by omega] at this
    exact this
  · intro p _ _ _; trivial
  · intro e r ih1 ih2 p hp hsi h
    obtain ⟨k, n⟩ := e
    simp only [PlainM] at hp
    simp only [eraseM, SimpleM] at hsi
    exact ⟨ih1 _ _ hp.2.1 hsi.2.1 (h (k, n) (by simp)), ih2 _ hp.2.2 hsi.2.2 (fun e he => h e (by simp [he]))⟩
  · intro k n ih so p hp hsi h; exact ih so p hp hsi h

theorem findInStubs_some {L : Lang E} {stubs : List (Node E)} (hs : ∀ s ∈ stubs, Plain L s) {p : List String}
    {o : Node E} (h : findInStubs false stubs p = some o) : ∃ s ∈ stubs, find false s p = some o := by
  rw [findInStubs_eq hs] at h
  exact List.exists_of_findSome?_eq_some h

theorem find_simple {L : Lang E} {n o : Node E} (hp : Plain L n) (hsi : Simple (erase n)) {p : List Sel}
    (hk : ∀ s ∈ p, SelOK s) (h : find false n (p.map render) = some o) : Simple (erase o) := by
  induction p generalizing n with
  | nil => simp only [find, List.map_nil, findR, Look.toOption, Option.some.injEq] at h; subst h; exact hsi
  | cons s r ih =>
    simp only [find, List.map_cons, findR] at h
    cases hn : nextStep false false (render s) n with
    | found n' =>
      rw [hn] at h
      exact ih (nextStep_plain hp hn) (nextStep_simple hp hsi (hk s (by simp)) hn) (fun s hs => hk s (by simp [hs])) h
    | missing => rw [hn] at h; simp [Look.toOption] at h
    | panic => rw [hn] at h; simp [Look.toOption] at h

/-- The name of a list entry addressed by name is not changed by the stubs. -/
theorem named_entry_name {L : Lang E} {stubs : List (Node E)} (hs : ∀ s ∈ stubs, Plain L s)
    (hsi : ∀ s ∈ stubs, Simple (erase s)) {p : List Sel} (hk : ∀ s ∈ p, SelOK s) {nm : String} {o : Node E}
    (h : findInStubs false stubs (p.map render ++ ["name:" ++ nm] ++ ["name"]) = some o) : ∃ s a, o = .mk (.str nm) s a := by
  obtain ⟨st, hst, hf⟩ := findInStubs_some hs h
  rw [List.append_assoc, find_append] at hf
  cases hx : find false st (p.map render) with
  | none => rw [hx] at hf; simp at hf
  | some x =>
    rw [hx] at hf
    have hxp := findR_plain (hs st hst) (toOption_some hx)
    have hxs := find_simple (hs st hst) (hsi st hst) hk hx
    simp only [Option.bind_some, List.singleton_append] at hf
    simp only [find, findR] at hf
    cases hy : nextStep false false ("name:" ++ nm) x with
    | missing => rw [hy] at hf; simp [Look.toOption] at hf
    | panic => rw [hy] at hf; simp [Look.toOption] at hf
    | found y =>
      rw [hy] at hf
      simp only at hf
      have hsel := sel_erase hxp hxs (s := .named nm) trivial
      rw [render, hy] at hsel
      simp only [Look.toOption, Option.map_some] at hsel
      have hyp := nextStep_plain hxp hy
      -- the found entry has the name
      have hname : nameOfN y = some nm := by
        rw [← nameOf_erase']
        generalize erase x = d at hsel
        cases d <;> simp only [Doc.sel] at hsel <;> try contradiction
        have := List.find?_some hsel.symm
        simpa using this
      obtain ⟨v, ys, ya⟩ := y
      cases v <;> simp only [nameOfN, Node.val] at hname <;> try contradiction
      next m =>
        simp only [Plain, PlainV] at hyp
        simp only [nextStep, Node.val, stepMap_plain hyp.2.2] at hf
        split at hname
        · next hg =>
          rw [hg] at hf
          simp only [Look.toOption, Option.some.injEq] at hf
          cases hname
          exact ⟨_, _, hf.symm⟩
        · contradiction

theorem nameOfN_ov_named {L : Lang E} {stubs : List (Node E)} (hs : ∀ s ∈ stubs, Plain L s)
    (hsi : ∀ s ∈ stubs, Simple (erase s)) {p : List Sel} (hk : ∀ s ∈ p, SelOK s) {nm : String} {n : Node E}
    (hn : nameOfN n = some nm) (so : Bool) :
    nameOfN (ovN stubs so (p.map render ++ ["name:" ++ nm]) n) = some nm := by
  obtain ⟨v, s, a⟩ := n
  cases v <;> simp only [nameOfN, Node.val] at hn <;> try contradiction
  next m =>
    simp only [ovN, ovV, nameOfN, Node.val, mget_ovM]
    split at hn
    · next nm' xs xa hg =>
      cases hn
      rw [hg]
      simp only [Option.map_some, ovN, ovV, if_true]
      cases hf : findInStubs false stubs (p.map render ++ ["name:" ++ nm] ++ ["name"]) with
      | none => rfl
      | some o =>
        obtain ⟨s', a', rfl⟩ := named_entry_name hs hsi hk hf
        rfl
    · contradiction

theorem nameOfN_ov_unnamed {stubs : List (Node E)} {n : Node E} (h : hasName (erase n) = false) (p : List String) :
    nameOfN (ovN stubs false p n) = none := by
  obtain ⟨v, s, a⟩ := n
  cases v <;> simp only [ovN, ovV, nameOfN, Node.val, Bool.false_eq_true, if_false]
  next m =>
    rw [mget_ovM]
    simp only [hasName, erase, eraseV, lookup_eq_mget, mget_eraseM] at h
    cases hg : mget m "name" with
    | none => rfl
    | some x => rw [hg] at h; simp at h

/-- The result of a pass is stable. -/
theorem stab_ov {L : Lang E} {stubs : List (Node E)} (hs : ∀ s ∈ stubs, Plain L s)
    (hsi : ∀ s ∈ stubs, Simple (erase s)) (n : Node E) :
    ∀ so (p : List Sel), (∀ s ∈ p, SelOK s) → Plain L n → Simple (erase n) → NamesOK (erase n) →
      Stab stubs so (p.map render) (ovN stubs so (p.map render) n) := by
  have leaf : ∀ (n : Node E) (so : Bool) (p : List Sel), (∀ s ∈ p, SelOK s) →
      (∀ so p, leafOK stubs so p n → Stab stubs so p n) →
      Stab stubs so (p.map render) (if so then (findInStubs false stubs (p.map render)).getD n else n) := by
    intro n so p hk hl
    cases so with
    | false => exact hl _ _ (by simp [leafOK])
    | true =>
      simp only [if_true]
      cases hf : findInStubs false stubs (p.map render) with
      | none => exact hl _ _ (fun _ => Or.inl hf)
      | some o =>
        obtain ⟨st, hst, hfo⟩ := findInStubs_some hs hf
        exact stab_found hs o _ _ (findInStubs_plain hs hf) (find_simple (hs st hst) (hsi st hst) hk hfo) hf
  refine Node.rec
    (motive_1 := fun v => ∀ so (p : List Sel) s a, (∀ s ∈ p, SelOK s) → PlainV L a v → Simple (eraseV v) → NamesOK (eraseV v) →
      Stab stubs so (p.map render) (ovV stubs so (p.map render) s a v))
    (motive_2 := fun n => ∀ so (p : List Sel), (∀ s ∈ p, SelOK s) → Plain L n → Simple (erase n) → NamesOK (erase n) →
      Stab stubs so (p.map render) (ovN stubs so (p.map render) n))
    (motive_3 := fun l => ∀ u (p : List Sel) i, (∀ s ∈ p, SelOK s) → PlainL L l → SimpleL (eraseL l) → NamesOKL (eraseL l) →
      (u = true → ∀ n ∈ l, (nameOfN n).isSome) →
      StabL stubs u (p.map render) i (ovL stubs u (p.map render) i l))
    (motive_4 := fun m => ∀ (p : List Sel), (∀ s ∈ p, SelOK s) → PlainM L m → SimpleM (eraseM m) → NamesOKM (eraseM m) →
      StabM stubs (p.map render) (ovM stubs (p.map render) m))
    (motive_5 := fun e => ∀ so (p : List Sel), (∀ s ∈ p, SelOK s) → Plain L e.2 → Simple (erase e.2) → NamesOK (erase e.2) →
      Stab stubs so (p.map render) (ovN stubs so (p.map render) e.2))
    ?_ ?_ ?_ ?_ ?_ ?_ ?_ ?_ ?_ ?_ ?_ ?_ ?_ ?_ ?_ ?_ n
  · intro so p s a hk _ _ _; exact leaf (.mk .nil s a) so p hk (fun _ _ h => h)
  · intro b so p s a hk _ _ _; exact leaf (.mk (.bool b) s a) so p hk (fun _ _ h => h)
  · intro b so p s a hk _ _ _; exact leaf (.mk (.int b) s a) so p hk (fun _ _ h => h)
  · intro b so p s a hk _ _ _; exact leaf (.mk (.float b) s a) so p hk (fun _ _ h => h)
  · intro b so p s a hk _ _ _; exact leaf (.mk (.str b) s a) so p hk (fun _ _ h => h)
  · intro l ih so p s a hk hp hsi' hno
    simp only [PlainV] at hp
    simp only [eraseV, Simple] at hsi'
    simp only [eraseV, NamesOK] at hno
    simp only [ovV, Stab, StabV]
    have hun : uniqN (ovL stubs (uniqN l) (p.map render) 0 l) = uniqN l := by
      cases hu : uniqN l with
      | true =>
        have h1 := hu
        simp only [uniqN, Bool.and_eq_true, List.all_eq_true, decide_eq_true_eq] at h1
        have : ∀ (l : List (Node E)) i, (∀ n ∈ l, (nameOfN n).isSome) →
            (ovL stubs true (p.map render) i l).map nameOfN = l.map nameOfN := by
          intro l
          induction l with
          | nil => intros; rfl
          | cons n r ihr =>
            intro i hn
            simp only [ovL, List.map_cons]
            obtain ⟨nm, hnm⟩ := Option.isSome_iff_exists.1 (hn n (by simp))
            rw [ihr _ (fun n hn' => hn n (by simp [hn']))]
            congr 1
            simp only [entryStep, hnm]
            exact nameOfN_ov_named hs hsi hk hnm false
        rw [uniqN_names, this l 0 h1.1, ← uniqN_names, hu]
      | false =>
        have hnall : ¬ ((eraseL l).all hasName = true) := by
          intro h
          have := hno.1 h
          rw [allNamed_erase, hu] at this
          contradiction
        have hex : ∃ n ∈ l, hasName (erase n) = false := by
          rw [eraseL_eq, List.all_map] at hnall
          simp only [List.all_eq_true, Function.comp_apply] at hnall
          refine Classical.byContradiction fun hc => hnall fun n hn => ?_
          cases hb : hasName (erase n) with
          | true => rfl
          | false => exact absurd ⟨n, hn, hb⟩ hc
        have : ∀ (l : List (Node E)) i, (∃ n ∈ l, hasName (erase n) = false) →
            ∃ x ∈ ovL stubs false (p.map render) i l, nameOfN x = none := by
          intro l
          induction l with
          | nil => intro i ⟨n, hn, _⟩; simp at hn
          | cons n r ihr =>
            rintro i ⟨x, hx, hxn⟩
            simp only [ovL]
            rcases List.mem_cons.1 hx with rfl | hx
            · exact ⟨_, List.mem_cons_self, nameOfN_ov_unnamed hxn _⟩
            · obtain ⟨y, hy, hyn⟩ := ihr (i + 1) ⟨x, hx, hxn⟩
              exact ⟨y, List.mem_cons_of_mem _ hy, hyn⟩
        obtain ⟨x, hx, hxn⟩ := this l 0 hex
        simp only [uniqN, Bool.and_eq_false_iff]
        left
        rw [List.all_eq_false]
        exact ⟨x, hx, by simp [hxn]⟩
    rw [hun]
    refine ih _ _ _ hk hp.2 hsi'.2 hno.2 ?_
    intro hu
    simp only [uniqN, Bool.and_eq_true, List.all_eq_true] at hu
    exact hu.1
  · intro m ih so p s a hk hp hsi' hno
    simp only [PlainV] at hp
    simp only [eraseV, Simple] at hsi'
    simp only [eraseV, NamesOK] at hno
    simp only [ovV, Stab, StabV]
    exact ih _ hk hp.2.2 hsi' hno
  · intro e so p s a _ h; exact h.elim
  · intro e _ so p s a _ h; exact h.elim
  · intro e so p s a _ h; exact h.elim
  · intro v s a ih so p hk hp h1 h2; exact ih so p s a hk hp h1 h2
  · intro u p i _ _ _ _ _; trivial
  · intro n l ih1 ih2 u p i hk hp hsi' hno hu
    simp only [PlainL] at hp
    simp only [eraseL, SimpleL] at hsi'
    simp only [eraseL, NamesOKL] at hno
    simp only [ovL, StabL]
    refine ⟨?_, ih2 _ _ _ hk hp.2 hsi'.2 hno.2 (fun h n hn => hu h n (by simp [hn]))⟩
    have hst : entryStep u i (ovN stubs false (p.map render ++ [entryStep u i n]) n) = entryStep u i n := by
      cases u with
      | false => rfl
      | true =>
        obtain ⟨nm, hnm⟩ := Option.isSome_iff_exists.1 (hu rfl n (by simp))
        have h1 : entryStep true i n = "name:" ++ nm := by simp [entryStep, hnm]
        rw [h1]
        simp only [entryStep, nameOfN_ov_named hs hsi hk hnm false]
    rw [hst]
    have := ih1 false (p ++ [Spec.entrySel u i (erase n)]) (by
      intro s hs
      rcases List.mem_append.1 hs with hs | hs
      · exact hk s hs
      · rw [List.mem_singleton.1 hs]; exact SelOK_entrySel _ _ _) hp.1 hsi'.1 hno.1
    rw [List.map_append, List.map_singleton, render_entrySel] at this
    exact this
  · intro p _ _ _ _; trivial
  · intro e r ih1 ih2 p hk hp hsi' hno
    obtain ⟨k, n⟩ := e
    simp only [PlainM] at hp
    simp only [eraseM, SimpleM] at hsi'
    simp only [eraseM, NamesOKM] at hno
    simp only [ovM, StabM]
    refine ⟨?_, ih2 _ hk hp.2.2 hsi'.2.2 hno.2⟩
    have := ih1 true (p ++ [.key k]) (by
      intro s hs
      rcases List.mem_append.1 hs with hs | hs
      · exact hk s hs
      · rw [List.mem_singleton.1 hs]; exact hsi'.1) hp.2.1 hsi'.2.1 hno.1
    rw [List.map_append, List.map_singleton] at this
    exact this
  · intro k n ih so p hk hp h1 h2; exact ih so p hk hp h1 h2

end Spiff
