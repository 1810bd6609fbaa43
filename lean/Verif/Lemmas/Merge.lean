import Verif.Lemmas.Plain
import Verif.Lemmas.Index
import Verif.Spec.Override
/-
Plain documents: the fixpoint loop and the relation to the specification.
-/
namespace Spiff
open Spec (Doc Sel)
variable {E : Type}

mutual
/-- The plain data of a node. -/
def erase : Node E → Doc
  | .mk v _ _ => eraseV v
termination_by structural n => n
def eraseV : Val E → Doc
  | .nil => .nil
  | .bool b => .bool b
  | .int b => .int b
  | .float b => .float b
  | .str b => .str b
  | .list l => .list (eraseL l)
  | .map m => .map (eraseM m)
  | .expr _ => .nil
  | .templ _ => .nil
  | .lambda _ => .nil
termination_by structural n => n
def eraseL : List (Node E) → List Doc
  | [] => []
  | n :: r => erase n :: eraseL r
termination_by structural n => n
def eraseM : List (String × Node E) → List (String × Doc)
  | [] => []
  | (k, n) :: r => (k, erase n) :: eraseM r
termination_by structural n => n
end

theorem eraseL_eq (l : List (Node E)) : eraseL l = l.map erase := by
  induction l with
  | nil => rfl
  | cons a r ih => simp [eraseL, ih]

theorem eraseM_eq (m : List (String × Node E)) : eraseM m = m.map (fun e => (e.1, erase e.2)) := by
  induction m with
  | nil => rfl
  | cons a r ih => obtain ⟨k, n⟩ := a; simp [eraseM, ih]

theorem mget_eraseM (m : List (String × Node E)) (k : String) : mget (eraseM m) k = (mget m k).map erase := by
  rw [eraseM_eq]; exact mget_map_snd (fun _ n => erase n) m k

/-- A field name that is not of the form of a list index `[n]` or of a key selection
`key:value`. -/
def KeyOK (k : String) : Prop := listIndex k.toList = none ∧ splitColon k.toList = none

mutual
/-- Field names do not look like list selectors; lists have a length in the range of Go. -/
def Simple : Doc → Prop
  | .list l => l.length < 2^63 ∧ SimpleL l
  | .map m => SimpleM m
  | _ => True
termination_by structural d => d
def SimpleL : List Doc → Prop
  | [] => True
  | d :: r => Simple d ∧ SimpleL r
termination_by structural d => d
def SimpleM : List (String × Doc) → Prop
  | [] => True
  | (k, d) :: r => KeyOK k ∧ Simple d ∧ SimpleM r
termination_by structural d => d
end

/-- has a field `name` -/
def hasName : Doc → Bool
  | .map m => (m.lookup "name").isSome
  | _ => false

mutual
/-- A list all of whose entries have a field `name` uses distinct strings as names. -/
def NamesOK : Doc → Prop
  | .list l => (l.all hasName = true → Spec.allNamed l = true) ∧ NamesOKL l
  | .map m => NamesOKM m
  | _ => True
termination_by structural d => d
def NamesOKL : List Doc → Prop
  | [] => True
  | d :: r => NamesOK d ∧ NamesOKL r
termination_by structural d => d
def NamesOKM : List (String × Doc) → Prop
  | [] => True
  | (_, d) :: r => NamesOK d ∧ NamesOKM r
termination_by structural d => d
end

theorem SimpleL_iff {l : List Doc} : SimpleL l ↔ ∀ d ∈ l, Simple d := by
  induction l with
  | nil => simp [SimpleL]
  | cons a r ih => simp [SimpleL, ih]
theorem SimpleM_iff {m : List (String × Doc)} : SimpleM m ↔ ∀ e ∈ m, KeyOK e.1 ∧ Simple e.2 := by
  induction m with
  | nil => simp [SimpleM]
  | cons a r ih => obtain ⟨k, n⟩ := a; simp [SimpleM, ih, and_assoc]
theorem NamesOKL_iff {l : List Doc} : NamesOKL l ↔ ∀ d ∈ l, NamesOK d := by
  induction l with
  | nil => simp [NamesOKL]
  | cons a r ih => simp [NamesOKL, ih]
theorem NamesOKM_iff {m : List (String × Doc)} : NamesOKM m ↔ ∀ e ∈ m, NamesOK e.2 := by
  induction m with
  | nil => simp [NamesOKM]
  | cons a r ih => obtain ⟨k, n⟩ := a; simp [NamesOKM, ih]

/-! #### names -/

theorem nameOf_erase' (n : Node E) : (erase n).nameOf = nameOfN n := by
  obtain ⟨v, s, a⟩ := n
  cases v <;> simp only [erase, eraseV, Doc.nameOf, nameOfN, Node.val]
  next m =>
    rw [lookup_eq_mget, mget_eraseM]
    cases mget m "name" with
    | none => rfl
    | some x =>
      obtain ⟨xv, xs, xa⟩ := x
      cases xv <;> rfl

theorem allNamed_erase (l : List (Node E)) : Spec.allNamed (eraseL l) = uniqN l := by
  rw [eraseL_eq]
  simp only [Spec.allNamed, uniqN, List.all_map, List.map_map]
  congr 1
  · congr 1
    funext n
    simp [nameOf_erase']
  · have : (Doc.nameOf ∘ erase : Node E → Option String) = nameOfN := by
      funext n; exact nameOf_erase' n
    rw [this]

/-! #### rendering of selectors -/

/-- The path component used by the code for a selector. -/
def render : Sel → String
  | .key k => k
  | .entry i => "[" ++ toString i ++ "]"
  | .named n => "name:" ++ n

def SelOK : Sel → Prop
  | .key k => KeyOK k
  | _ => True

theorem render_entrySel (u : Bool) (i : Nat) (n : Node E) :
    render (Spec.entrySel u i (erase n)) = entryStep u i n := by
  unfold Spec.entrySel entryStep
  rw [nameOf_erase']
  cases u <;> cases nameOfN n <;> rfl

theorem SelOK_entrySel (u : Bool) (i : Nat) (d : Doc) : SelOK (Spec.entrySel u i d) := by
  unfold Spec.entrySel
  split <;> trivial

theorem findNamed_erase {L : Lang E} {l : List (Node E)} (h : PlainL L l) (s : String) :
    (findNamed false false l "name" s).map erase = (eraseL l).find? (fun d => d.nameOf == some s) := by
  induction l with
  | nil => rfl
  | cons n r ih =>
    simp only [PlainL] at h
    have ih := ih h.2
    unfold findNamed
    simp only [eraseL, List.find?_cons, nameOf_erase']
    obtain ⟨v, ns, a⟩ := n
    cases v with
    | map m =>
      have hm := h.1
      simp only [Plain, PlainV] at hm
      simp only [Node.val, stepMap_plain hm.2.2, nameOfN]
      cases hg : mget m "name" with
      | none => simpa [hg] using ih
      | some x =>
        obtain ⟨xv, xs, xa⟩ := x
        cases xv with
        | str name =>
          by_cases he : name = s
          · simp [he]
          · have : (name == s) = false := by simpa using he
            simpa [he, this] using ih
        | _ => simpa using ih
    | _ => simpa [Node.val, nameOfN] using ih

theorem keyName_plain {L : Lang E} {n : Node E} (h : Plain L n) : n.ann.keyName = "" := by
  rcases plain_ann h with h | h <;> simp [h, bare, bareList]

theorem ofList_name : String.ofList "name".toList = "name" := rfl

theorem indexList_nat (l : List (Node E)) (i : Nat) (hl : l.length < 2^63) :
    (indexList l (i : Int)).toOption = l[i]? := by
  unfold indexList
  by_cases hi : (i : Int) ≥ 2^63
  · have h1 : (decide ((i : Int) < -2 ^ 63) || decide ((i : Int) ≥ 2 ^ 63)) = true := by simp; omega
    simp only [h1, if_true, Look.toOption]
    symm
    rw [List.getElem?_eq_none_iff]
    omega
  · have h1 : (decide ((i : Int) < -2 ^ 63) || decide ((i : Int) ≥ 2 ^ 63)) = false := by
      simp; omega
    have h2 : ¬ ((i : Int) < 0) := by omega
    simp only [h1, h2, if_false, Bool.false_eq_true, Int.toNat_natCast]
    cases l[i]? <;> rfl

theorem sel_erase {L : Lang E} {n : Node E} (hp : Plain L n) (hs : Simple (erase n)) {s : Sel} (hk : SelOK s) :
    (nextStep false false (render s) n).toOption.map erase = (erase n).sel s := by
  have hkn := keyName_plain hp
  obtain ⟨v, ns, a⟩ := n
  unfold nextStep
  cases v with
  | map m =>
    have hm := hp
    simp only [Plain, PlainV] at hm
    simp only [erase, eraseV, Simple] at hs
    simp only [Node.val, stepMap_plain hm.2.2]
    have hno : ∀ k, ¬ KeyOK k → mget m k = none := by
      intro k hk
      rw [mget_none_iff]
      intro hmem
      obtain ⟨e, he, rfl⟩ := List.mem_map.1 hmem
      apply hk
      have := SimpleM_iff.1 hs (e.1, erase e.2) (by rw [eraseM_eq]; exact List.mem_map.2 ⟨e, he, rfl⟩)
      exact this.1
    cases s with
    | key k =>
      simp only [render, erase, eraseV, Doc.sel, lookup_eq_mget, mget_eraseM]
      cases mget m k <;> rfl
    | entry i =>
      have : ¬ KeyOK ("[" ++ toString i ++ "]") := by
        intro h; have := h.1; rw [listIndex_idx] at this; simp at this
      simp only [render, hno _ this, Look.toOption, erase, eraseV, Doc.sel]; rfl
    | named x =>
      have : ¬ KeyOK ("name:" ++ x) := by
        intro h; have := h.2; rw [splitColon_named] at this; simp at this
      simp only [render, hno _ this, Look.toOption, erase, eraseV, Doc.sel]; rfl
  | list l =>
    have hl := hp
    simp only [Plain, PlainV] at hl
    simp only [erase, eraseV, Simple] at hs
    have hlen : l.length < 2^63 := by have := hs.1; rw [eraseL_eq, List.length_map] at this; exact this
    simp only [Node.val, isListResolved_plain hl.2, Bool.not_true, Bool.and_false, Bool.false_eq_true, if_false,
      hkn]
    unfold stepList
    cases s with
    | key k =>
      simp only [SelOK, KeyOK] at hk
      simp only [render, hk.1, hk.2, if_true, erase, eraseV, Doc.sel, ← findNamed_erase hl.2]
      cases findNamed false false l "name" k <;> rfl
    | entry i =>
      simp only [render, listIndex_idx, indexList_nat l i hlen, erase, eraseV, Doc.sel, eraseL_eq, List.getElem?_map]
    | named x =>
      simp only [render, listIndex_named, splitColon_named, erase, eraseV, Doc.sel, ← findNamed_erase hl.2]
      rw [ofList_name, String.ofList_toList]
      cases findNamed false false l "name" x <;> rfl
  | _ => cases s <;> rfl

theorem nextStep_simple {L : Lang E} {n n' : Node E} {s : Sel} (hp : Plain L n) (hs : Simple (erase n)) (hk : SelOK s)
    (h : nextStep false false (render s) n = .found n') : Simple (erase n') := by
  have := sel_erase hp hs hk
  rw [h] at this
  simp only [Look.toOption, Option.map_some] at this
  generalize erase n = d at this hs
  generalize erase n' = d' at this
  cases d <;> cases s <;> simp only [Doc.sel] at this <;> try contradiction
  next l k =>
    simp only [Simple] at hs
    exact SimpleL_iff.1 hs.2 _ (List.mem_of_find?_eq_some this.symm)
  next l i =>
    simp only [Simple] at hs
    exact SimpleL_iff.1 hs.2 _ (List.mem_of_getElem? this.symm)
  next l k =>
    simp only [Simple] at hs
    exact SimpleL_iff.1 hs.2 _ (List.mem_of_find?_eq_some this.symm)
  next m k =>
    simp only [Simple] at hs
    rw [lookup_eq_mget] at this
    exact (SimpleM_iff.1 hs _ (mget_some_mem this.symm)).2

theorem at_erase {L : Lang E} {n : Node E} (hp : Plain L n) (hs : Simple (erase n)) {p : List Sel}
    (hk : ∀ s ∈ p, SelOK s) : (find false n (p.map render)).map erase = (erase n).at p := by
  induction p generalizing n with
  | nil => simp [find, findR, Look.toOption, Doc.at]
  | cons s r ih =>
    have hs1 := hk s (by simp)
    have hsel := sel_erase hp hs hs1
    simp only [List.map_cons, find, findR]
    cases hn : nextStep false false (render s) n with
    | found n' =>
      rw [hn] at hsel
      simp only [Look.toOption, Option.map_some] at hsel
      simp only [Doc.at, ← hsel]
      exact ih (nextStep_plain hp hn) (nextStep_simple hp hs hs1 hn) (fun s hs => hk s (by simp [hs]))
    | missing =>
      rw [hn] at hsel
      simp only [Look.toOption, Option.map_none] at hsel
      simp [Doc.at, ← hsel, Look.toOption]
    | panic =>
      rw [hn] at hsel
      simp only [Look.toOption, Option.map_none] at hsel
      simp [Doc.at, ← hsel, Look.toOption]

theorem stubValue_erase {L : Lang E} {stubs : List (Node E)} (hp : ∀ s ∈ stubs, Plain L s)
    (hs : ∀ s ∈ stubs, Simple (erase s)) {p : List Sel} (hk : ∀ s ∈ p, SelOK s) :
    (findInStubs false stubs (p.map render)).map erase = Spec.stubValue (stubs.map erase) p := by
  rw [findInStubs_eq hp]
  unfold Spec.stubValue
  induction stubs with
  | nil => rfl
  | cons s r ih =>
    simp only [List.findSome?_cons, List.map_cons]
    rw [← at_erase (hp s (by simp)) (hs s (by simp)) hk]
    cases find false s (p.map render) with
    | none => exact ih (fun s h => hp s (by simp [h])) (fun s h => hs s (by simp [h]))
    | some x => rfl

/-- One pass computes the specified overlay. -/
theorem erase_ovN {L : Lang E} {stubs : List (Node E)} (hp : ∀ s ∈ stubs, Plain L s)
    (hs : ∀ s ∈ stubs, Simple (erase s)) (n : Node E) : ∀ so p, Plain L n → Simple (erase n) → (∀ s ∈ p, SelOK s) →
      erase (ovN stubs so (p.map render) n) = Spec.overlay (stubs.map erase) so p (erase n) := by
  have leaf : ∀ (n : Node E) (so : Bool) (p : List Sel), (∀ s ∈ p, SelOK s) →
      erase (if so then (findInStubs false stubs (p.map render)).getD n else n)
        = if so then (Spec.stubValue (stubs.map erase) p).getD (erase n) else erase n := by
    intro n so p hk
    cases so with
    | false => simp
    | true =>
      simp only [if_true]
      rw [← stubValue_erase hp hs hk]
      cases findInStubs false stubs (p.map render) <;> rfl
  refine Node.rec
    (motive_1 := fun v => ∀ so p s a, PlainV L a v → Simple (eraseV v) → (∀ s ∈ p, SelOK s) →
      erase (ovV stubs so (p.map render) s a v) = Spec.overlay (stubs.map erase) so p (eraseV v))
    (motive_2 := fun n => ∀ so p, Plain L n → Simple (erase n) → (∀ s ∈ p, SelOK s) →
      erase (ovN stubs so (p.map render) n) = Spec.overlay (stubs.map erase) so p (erase n))
    (motive_3 := fun l => ∀ u p i, PlainL L l → SimpleL (eraseL l) → (∀ s ∈ p, SelOK s) →
      eraseL (ovL stubs u (p.map render) i l) = Spec.overlayL (stubs.map erase) u p i (eraseL l))
    (motive_4 := fun m => ∀ p, PlainM L m → SimpleM (eraseM m) → (∀ s ∈ p, SelOK s) →
      eraseM (ovM stubs (p.map render) m) = Spec.overlayM (stubs.map erase) p (eraseM m))
    (motive_5 := fun e => ∀ so p, Plain L e.2 → Simple (erase e.2) → (∀ s ∈ p, SelOK s) →
      erase (ovN stubs so (p.map render) e.2) = Spec.overlay (stubs.map erase) so p (erase e.2))
    ?_ ?_ ?_ ?_ ?_ ?_ ?_ ?_ ?_ ?_ ?_ ?_ ?_ ?_ ?_ ?_ n
  · intro so p s a _ _ hk; exact leaf (.mk .nil s a) so p hk
  · intro b so p s a _ _ hk; exact leaf (.mk (.bool b) s a) so p hk
  · intro b so p s a _ _ hk; exact leaf (.mk (.int b) s a) so p hk
  · intro b so p s a _ _ hk; exact leaf (.mk (.float b) s a) so p hk
  · intro b so p s a _ _ hk; exact leaf (.mk (.str b) s a) so p hk
  · intro l ih so p s a h hsi hk
    simp only [PlainV] at h
    simp only [eraseV, Simple] at hsi
    simp only [ovV, erase, eraseV, Spec.overlay, allNamed_erase]
    rw [ih _ _ _ h.2 hsi.2 hk]
  · intro m ih so p s a h hsi hk
    simp only [PlainV] at h
    simp only [eraseV, Simple] at hsi
    simp only [ovV, erase, eraseV, Spec.overlay]
    rw [ih _ h.2.2 hsi hk]
  · intro e so p s a h; exact h.elim
  · intro e _ so p s a h; exact h.elim
  · intro e so p s a h; exact h.elim
  · intro v s a ih so p h hsi hk
    exact ih so p s a h hsi hk
  · intro u p i _ _ _; rfl
  · intro n l ih1 ih2 u p i h hsi hk
    simp only [PlainL] at h
    simp only [eraseL, SimpleL] at hsi
    simp only [ovL, eraseL, Spec.overlayL]
    rw [ih2 _ _ _ h.2 hsi.2 hk]
    have := ih1 false (p ++ [Spec.entrySel u i (erase n)]) h.1 hsi.1 (by
      intro s hs
      rcases List.mem_append.1 hs with hs | hs
      · exact hk s hs
      · rw [List.mem_singleton.1 hs]; exact SelOK_entrySel _ _ _)
    rw [List.map_append, List.map_singleton, render_entrySel] at this
    rw [this]
  · intro p _ _ _; rfl
  · intro e r ih1 ih2 p h hsi hk
    obtain ⟨k, n⟩ := e
    simp only [PlainM] at h
    simp only [eraseM, SimpleM] at hsi
    simp only [ovM, eraseM, Spec.overlayM]
    rw [ih2 _ h.2.2 hsi.2.2 hk]
    have := ih1 true (p ++ [.key k]) h.2.1 hsi.2.1 (by
      intro s hs
      rcases List.mem_append.1 hs with hs | hs
      · exact hk s hs
      · rw [List.mem_singleton.1 hs]; exact hsi.1)
    rw [List.map_append, List.map_singleton] at this
    simp only [render] at this
    rw [this]
  · intro k n ih so p h hsi hk
    exact ih so p h hsi hk

end Spiff
