import Verif.Model.Flow
import Verif.Lemmas.Maps
/-
Plain documents: what one processing pass does to them.
-/
namespace Spiff
variable {E : Type}

/-- A map key without special meaning for the processing: no merge key, no
`key:` tag, no control. -/
def PlainKey (L : Lang E) (k : String) : Prop :=
  k ≠ "<<" ∧ k ≠ MERGEKEY ∧ keyTag k = none ∧ L.requireTemplate k = false

/-- A node has no annotations. -/
def bare : Ann := {}
/-- The only annotation processing adds to plain documents: lists for which a stub
value exists are flagged. -/
def bareList : Ann := { flags := { injected := true } }

/-- not a NaN and not negative zero: Go's equality is the identity on these -/
def FloatOK (b : Nat) : Prop := isNaN b = false ∧ (b % 2^63 = 0 → b = 0)

mutual
/-- A plain document: no dynaml, no merge keys, no annotations (except the one
added to lists by processing). -/
def Plain (L : Lang E) : Node E → Prop
  | .mk v _ a => PlainV L a v
termination_by structural n => n
def PlainV (L : Lang E) (a : Ann) : Val E → Prop
  | .list l => (a = bare ∨ a = bareList) ∧ PlainL L l
  | .map m => a = bare ∧ MapOK m ∧ PlainM L m
  | .str s => a = bare ∧ embeddedDynaml L.quote L.interpol s.toList = none
  | .nil => a = bare
  | .bool _ => a = bare
  | .int _ => a = bare
  | .float b => a = bare ∧ FloatOK b
  | .expr _ => False
  | .templ _ => False
  | .lambda _ => False
termination_by structural n => n
def PlainL (L : Lang E) : List (Node E) → Prop
  | [] => True
  | n :: r => Plain L n ∧ PlainL L r
termination_by structural n => n
def PlainM (L : Lang E) : List (String × Node E) → Prop
  | [] => True
  | (k, n) :: r => PlainKey L k ∧ Plain L n ∧ PlainM L r
termination_by structural n => n
end

theorem floatEq_eq {a b : Nat} (ha : FloatOK a) (hb : FloatOK b) (h : floatEq a b = true) : a = b := by
  simp only [floatEq, ha.1, hb.1, Bool.not_false, Bool.true_and, Bool.or_eq_true, beq_iff_eq, Bool.and_eq_true] at h
  rcases h with h | h
  · exact h
  · rw [ha.2 h.1, hb.2 h.2]

theorem floatEq_refl {a : Nat} (ha : isNaN a = false) : floatEq a a = true := by
  simp [floatEq, ha]

theorem PlainL_iff {L : Lang E} {l : List (Node E)} : PlainL L l ↔ ∀ n ∈ l, Plain L n := by
  induction l with
  | nil => simp [PlainL]
  | cons a r ih => simp [PlainL, ih]

theorem PlainM_iff {L : Lang E} {m : List (String × Node E)} :
    PlainM L m ↔ ∀ e ∈ m, PlainKey L e.1 ∧ Plain L e.2 := by
  induction m with
  | nil => simp [PlainM]
  | cons a r ih => obtain ⟨k, n⟩ := a; simp [PlainM, ih, and_assoc]

mutual
/-- nesting depth -/
def depth : Node E → Nat
  | .mk v _ _ => depthV v
termination_by structural n => n
def depthV : Val E → Nat
  | .list l => depthL l + 1
  | .map m => depthM m + 1
  | .templ n => depth n + 1
  | _ => 0
termination_by structural n => n
def depthL : List (Node E) → Nat
  | [] => 0
  | n :: r => max (depth n) (depthL r)
termination_by structural n => n
def depthM : List (String × Node E) → Nat
  | [] => 0
  | (_, n) :: r => max (depth n) (depthM r)
termination_by structural n => n
end

/-! #### names of list entries -/

def nameOfN (n : Node E) : Option String :=
  match n.val with
  | .map m => match mget m "name" with
    | some (.mk (.str s) _ _) => some s
    | _ => none
  | _ => none

def uniqN (l : List (Node E)) : Bool :=
  l.all (fun n => (nameOfN n).isSome) && decide ((l.map nameOfN).Nodup)

def entryStep (u : Bool) (i : Nat) (n : Node E) : String :=
  match u, nameOfN n with
  | true, some s => "name:" ++ s
  | _, _ => "[" ++ toString i ++ "]"

mutual
/-- What a pass does to a plain node. -/
def ovN (stubs : List (Node E)) (so : Bool) (p : List String) : Node E → Node E
  | .mk v s a => ovV stubs so p s a v
termination_by structural n => n
def ovV (stubs : List (Node E)) (so : Bool) (p : List String) (s : String) (a : Ann) : Val E → Node E
  | .map m => .mk (.map (ovM stubs p m)) s a
  | .list l => .mk (.list (ovL stubs (uniqN l) p 0 l)) s
      (if (findInStubs false stubs p).isSome then bareList else a)
  | .nil => if so then (findInStubs false stubs p).getD (.mk .nil s a) else .mk .nil s a
  | .bool b => if so then (findInStubs false stubs p).getD (.mk (.bool b) s a) else .mk (.bool b) s a
  | .int b => if so then (findInStubs false stubs p).getD (.mk (.int b) s a) else .mk (.int b) s a
  | .float b => if so then (findInStubs false stubs p).getD (.mk (.float b) s a) else .mk (.float b) s a
  | .str b => if so then (findInStubs false stubs p).getD (.mk (.str b) s a) else .mk (.str b) s a
  | .expr b => .mk (.expr b) s a
  | .templ b => .mk (.templ b) s a
  | .lambda b => .mk (.lambda b) s a
termination_by structural n => n
def ovM (stubs : List (Node E)) (p : List String) : List (String × Node E) → List (String × Node E)
  | [] => []
  | (k, n) :: r => (k, ovN stubs true (p ++ [k]) n) :: ovM stubs p r
termination_by structural n => n
def ovL (stubs : List (Node E)) (u : Bool) (p : List String) (i : Nat) : List (Node E) → List (Node E)
  | [] => []
  | n :: r => ovN stubs false (p ++ [entryStep u i n]) n :: ovL stubs u p (i + 1) r
termination_by structural n => n
end

/-! #### basic facts -/

theorem plain_ann {L : Lang E} {n : Node E} (h : Plain L n) : n.ann = bare ∨ n.ann = bareList := by
  obtain ⟨v, s, a⟩ := n
  cases v <;> simp_all [Plain, PlainV, Node.ann]

theorem plain_flags {L : Lang E} {n : Node E} (h : Plain L n) :
    n.flags.isInject = false ∧ n.flags.isDefault = false ∧ n.flags.isImplied = false ∧
    n.flags.temporary = false ∧ n.flags.state = false ∧ n.ann.undefined = false := by
  rcases plain_ann h with h | h <;> simp only [Node.flags, h] <;> decide

theorem mget_plain {L : Lang E} {m : List (String × Node E)} (h : PlainM L m) {k : String} {n : Node E}
    (hg : mget m k = some n) : Plain L n ∧ PlainKey L k := by
  have := PlainM_iff.1 h _ (mget_some_mem hg)
  exact ⟨this.2, this.1⟩

theorem mget_merge_none {L : Lang E} {m : List (String × Node E)} (h : PlainM L m) :
    mget m "<<" = none ∧ mget m MERGEKEY = none := by
  constructor
  · cases hg : mget m "<<" with
    | none => rfl
    | some n => exact absurd rfl (mget_plain h hg).2.1
  · cases hg : mget m MERGEKEY with
    | none => rfl
    | some n => exact absurd rfl (mget_plain h hg).2.2.1

theorem isMapResolved_plain {L : Lang E} {m : List (String × Node E)} (h : PlainM L m) :
    isMapResolved false m = true := by
  simp [isMapResolved, mget_merge_none h]

theorem stepMap_plain {L : Lang E} {m : List (String × Node E)} (h : PlainM L m) (raw : Bool) (k : String) :
    stepMap false raw m k = mget m k := by
  simp [stepMap, isMapResolved_plain h]

theorem listEntryMerge_plain {L : Lang E} {n : Node E} (h : Plain L n) : listEntryMerge n = none := by
  obtain ⟨v, s, a⟩ := n
  unfold listEntryMerge
  cases v with
  | map m =>
    simp only [Plain, PlainV] at h
    match m, h with
    | [], _ => rfl
    | [(k, v)], h =>
      have := h.2.2.1
      simp only [Node.val]
      simp [this.1, this.2.1]
    | _ :: _ :: _, _ => rfl
  | _ => rfl

theorem isListResolved_plain {L : Lang E} {l : List (Node E)} (h : PlainL L l) : isListResolved l = true := by
  simp only [isListResolved, List.all_eq_true]
  intro n hn
  simp [listEntryMerge_plain (PlainL_iff.1 h n hn)]

theorem findNamed_mem {ctl raw : Bool} {l : List (Node E)} {k s : String} {n : Node E}
    (h : findNamed ctl raw l k s = some n) : n ∈ l := by
  induction l with
  | nil => simp [findNamed] at h
  | cons a r ih =>
    unfold findNamed at h
    split at h
    · split at h
      · split at h
        · simp_all
        · exact List.mem_cons_of_mem _ (ih h)
      · exact List.mem_cons_of_mem _ (ih h)
    · exact List.mem_cons_of_mem _ (ih h)

theorem stepList_mem {ctl raw : Bool} {l : List (Node E)} {k s : String} {n : Node E}
    (h : stepList ctl raw l s k = .found n) : n ∈ l := by
  unfold stepList at h
  split at h
  · unfold indexList at h
    split at h
    · simp at h
    · split at h
      · split at h
        · simp at h
        · split at h
          · next hn => cases h; exact List.mem_of_getElem? hn
          · simp at h
      · split at h
        · next hn => cases h; exact List.mem_of_getElem? hn
        · simp at h
  · simp only at h
    split at h
    · next hn => cases h; exact findNamed_mem hn
    · simp at h

theorem nextStep_plain {L : Lang E} {raw : Bool} {n n' : Node E} {k : String} (hp : Plain L n)
    (h : nextStep false raw k n = .found n') : Plain L n' := by
  obtain ⟨v, s, a⟩ := n
  unfold nextStep at h
  cases v with
  | map m =>
    simp only [Plain, PlainV] at hp
    simp only [Node.val, stepMap_plain hp.2.2] at h
    split at h
    · next hg => cases h; exact (mget_plain hp.2.2 hg).1
    · simp at h
  | list l =>
    simp only [Plain, PlainV] at hp
    simp only [Node.val] at h
    split at h
    · simp at h
    · exact PlainL_iff.1 hp.2 _ (stepList_mem h)
  | _ => simp [Node.val] at h

theorem findR_plain {L : Lang E} {raw : Bool} {n n' : Node E} {p : List String} (hp : Plain L n)
    (h : findR false raw n p = .found n') : Plain L n' := by
  induction p generalizing n with
  | nil => simp only [findR] at h; cases h; exact hp
  | cons k r ih =>
    simp only [findR] at h
    split at h
    · next hs => exact ih (nextStep_plain hp hs) h
    · simp at h
    · simp at h

theorem toOption_some {α : Type} {x : Look α} {a : α} (h : x.toOption = some a) : x = .found a := by
  cases x <;> simp_all [Look.toOption]

theorem findInStubs_plain {L : Lang E} {stubs : List (Node E)} (hs : ∀ s ∈ stubs, Plain L s)
    {p : List String} {n : Node E} (h : findInStubs false stubs p = some n) : Plain L n := by
  induction stubs with
  | nil => simp [findInStubs] at h
  | cons s r ih =>
    unfold findInStubs at h
    have hr : ∀ s ∈ r, Plain L s := fun x hx => hs x (List.mem_cons_of_mem _ hx)
    split at h
    · next n' hf =>
      split at h
      · cases h
        exact findR_plain (hs s (by simp)) (toOption_some hf)
      · exact ih hr h
    · exact ih hr h

theorem findInStubs_eq {L : Lang E} {stubs : List (Node E)} (hs : ∀ s ∈ stubs, Plain L s) (p : List String) :
    findInStubs false stubs p = stubs.findSome? (fun s => find false s p) := by
  induction stubs with
  | nil => rfl
  | cons s r ih =>
    have hr : ∀ s ∈ r, Plain L s := fun x hx => hs x (List.mem_cons_of_mem _ hx)
    unfold findInStubs
    rw [List.findSome?_cons, ih hr]
    cases hf : find false s p with
    | none => rfl
    | some n =>
      have : n.flags.isImplied = false := (plain_flags (findR_plain (hs s (by simp)) (toOption_some hf))).2.2.1
      simp [this]

/-! #### flow on plain documents -/

theorem add_empty (f : Flags) : f.add {} = f := by
  cases f; simp [Flags.add]

theorem addFlags_empty (n : Node E) : n.addFlags {} = n := by
  obtain ⟨v, s, a⟩ := n
  simp [Node.addFlags, Node.withAnn, add_empty, Node.val, Node.src, Node.ann]

theorem inheritedFlags_plain {L : Lang E} {env : Env E} (hs : ∀ s ∈ env.stubs, Plain L s) :
    inheritedFlags env = ({}, findInStubs false env.stubs env.stubPath) := by
  unfold inheritedFlags
  cases h : findInStubs false env.stubs env.stubPath with
  | none => rfl
  | some o =>
    have := plain_flags (findInStubs_plain hs h)
    simp [this]

theorem override_bare {L : Lang E} {env : Env E} (hs : ∀ s ∈ env.stubs, Plain L s) (hn : env.nomerge = false)
    (v : Val E) (s : String) (so : Bool) :
    override env (.mk v s bare) so false false none "" {} =
      if so then (findInStubs false env.stubs env.stubPath).getD (.mk v s bare) else .mk v s bare := by
  unfold override
  cases so
  · simp
  · have h1 : (Node.mk v s bare).ann.standardOverride = true := rfl
    simp only [h1, hn, Bool.not_false, Bool.and_true, if_true]
    cases h : findInStubs false env.stubs env.stubPath with
    | none => rfl
    | some o =>
      have := plain_flags (findInStubs_plain hs h)
      have h2 : (Node.mk v s bare).flags.injected = false := rfl
      have h3 : Flags.overridden {} = {} := rfl
      simp [this, h2, h3, addFlags_empty]

theorem processKeyTag_plain {L : Lang E} {n : Node E} (h : Plain L n) : processKeyTag n = (n, "") := by
  obtain ⟨v, s, a⟩ := n
  unfold processKeyTag
  cases v with
  | map m =>
    simp only [Plain, PlainV] at h
    simp only [Node.val]
    have : ∀ (m : List (String × Node E)), PlainM L m → (mkeys m).foldl keyTagStep none = none := by
      intro m hm
      induction m with
      | nil => rfl
      | cons e r ih =>
        obtain ⟨k, n⟩ := e
        simp only [PlainM] at hm
        simp only [mkeys, List.map_cons, List.foldl_cons, keyTagStep, hm.1.2.2.1]
        exact ih hm.2.2
    rw [this m h.2.2]
  | _ => rfl

theorem listEntries_plain (L : Lang E) (rec : FlowFn E) (env : Env E) (orig : Node E) (root l : List (Node E))
    (v : ListVars E) (h : PlainL L l) :
    listEntries L rec env orig root l v = .ok { v with spliced := v.spliced ++ l } := by
  induction l generalizing v with
  | nil => simp [listEntries]
  | cons n r ih =>
    simp only [PlainL] at h
    unfold listEntries
    rw [listEntryMerge_plain h.1]
    simp only
    rw [ih _ h.2]
    simp [spliceEntry, processKeyTag_plain h.1]

theorem processMerges_plain (L : Lang E) (rec : FlowFn E) (orig : Node E) (l : List (Node E)) (env : Env E)
    (hs : ∀ s ∈ env.stubs, Plain L s) (h : PlainL L l) (ho : orig.ann = bare ∨ orig.ann = bareList) :
    processMerges L rec orig l env false =
      .ok { flags := {}, tag := "", spliced := l, process := true, merged := false, keyName := "",
            replaced := false, redirect := none, template := false } := by
  unfold processMerges
  rw [inheritedFlags_plain hs, listEntries_plain _ _ _ _ _ _ _ h]
  have h1 : l.any (isDirectMerge L) = false := by
    rw [List.any_eq_false]
    intro x hx
    simp [isDirectMerge, listEntryMerge_plain (PlainL_iff.1 h x hx)]
  have h2 : orig.flags.nomerge = false := by
    rcases ho with h | h <;> simp [Node.flags, h, bare, bareList]
  simp only [h1, h2, Bool.or_false]
  rcases ho with h | h <;> simp [listVars0, setNoMerge, Except.map, h, bare, bareList]

/-- `stepName` without looking for expressions in the key field -/
theorem stepName_plain {L : Lang E} (rec : FlowFn E) (i : Nat) {n : Node E} (h : Plain L n) (env : Env E) :
    stepName rec i n "" env true = .ok (match nameOfN n with
      | some s => ("name:" ++ s, true, true, true)
      | none => ("[" ++ toString i ++ "]", false, true, false)) := by
  obtain ⟨v, s, a⟩ := n
  unfold stepName
  cases v with
  | map m =>
    simp only [Plain, PlainV] at h
    simp only [if_true, findStr, findRaw, findR, nextStep, Node.val, stepMap_plain h.2.2, nameOfN]
    cases hg : mget m "name" with
    | none => rfl
    | some x =>
      obtain ⟨xv, xs, xa⟩ := x
      have hx := (mget_plain h.2.2 hg).1
      cases xv <;> simp_all [stepOf, Look.toOption, Val.isNil, Val.isExpr, Plain, PlainV, pure, Except.pure, bind,
        Except.bind, findR, Node.val]
  | list l =>
    simp only [Plain, PlainV] at h
    have hr := isListResolved_plain h.2
    simp only [if_true, findStr, findRaw, findR, nextStep, Node.val, hr, nameOfN]
    have hk : (Node.mk (Val.list l) s a).ann.keyName = "" := by
      rcases h.1 with h | h <;> simp [Node.ann, h, bare, bareList]
    simp only [hk, Bool.not_true, Bool.and_false, Bool.false_and, if_false, Bool.not_false, Bool.and_true]
    have key : ∀ raw x, stepList false raw l "name" "" = .found x → ∃ m xs xa, x = .mk (.map m) xs xa := by
      intro raw x hx
      have h0 : listIndex "name".toList = none := by decide
      have h1 : splitColon "name".toList = none := by decide
      unfold stepList at hx
      simp only [h0, h1, if_true] at hx
      have : ∀ l : List (Node E), ∀ x, findNamed false raw l "name" "name" = some x →
          ∃ m xs xa, x = .mk (.map m) xs xa := by
        intro l
        induction l with
        | nil => intro x hx; simp [findNamed] at hx
        | cons y r ih =>
          intro x hx
          unfold findNamed at hx
          split at hx
          · next m hm =>
            split at hx
            · split at hx
              · cases hx; obtain ⟨yv, ys, ya⟩ := y; simp only [Node.val] at hm; subst hm; exact ⟨_, _, _, rfl⟩
              · exact ih _ hx
            · exact ih _ hx
          · exact ih _ hx
      split at hx
      · next hf => cases hx; exact this _ _ hf
      · simp at hx
    rcases hx1 : stepList false false l "name" "" with x | _ | _
    · obtain ⟨m, xs, xa, rfl⟩ := key _ _ hx1
      rcases hx2 : stepList false true l "name" "" with y | _ | _
      · obtain ⟨m', xs', xa', rfl⟩ := key _ _ hx2
        simp [stepOf, Look.toOption, findR, Node.val, Val.isNil, Val.isExpr, pure, Except.pure, bind, Except.bind]
      · simp [Look.toOption, findR]
      · simp [Look.toOption, findR]
    all_goals
      rcases hx2 : stepList false true l "name" "" with y | _ | _
      · obtain ⟨m', xs', xa', rfl⟩ := key _ _ hx2
        simp [stepOf, Look.toOption, findR, Node.val, Val.isNil, Val.isExpr, pure, Except.pure, bind, Except.bind]
      · simp [Look.toOption]
      · simp [Look.toOption]
  | _ => simp [findStr, findRaw, findR, nextStep, Node.val, Look.toOption, nameOfN]

theorem stepName_plain_idx {L : Lang E} (rec : FlowFn E) (i : Nat) {n : Node E} (h : Plain L n) (env : Env E) :
    stepName rec i n "" env false = .ok ("[" ++ toString i ++ "]", false, true, false) := by
  have hn : ∀ x, findRaw false n ["name"] = some x → x.val.isExpr = false := by
    intro x hx
    have := findR_plain h (toOption_some hx)
    obtain ⟨xv, xs, xa⟩ := x
    cases xv <;> simp_all [Plain, PlainV, Node.val, Val.isExpr]
  unfold stepName
  simp only [if_true, Bool.false_eq_true, if_false]
  cases hf : findRaw false n ["name"] with
  | none => rfl
  | some x =>
    have := hn x hf
    simp only [this]
    split
    · rfl
    · simp only [Bool.false_eq_true, if_false, stepOf, this]
      split <;> rfl

def uk : List (Node E) → List String → Bool
  | [], _ => true
  | n :: r, keys => match nameOfN n with
    | none => false
    | some s => !keys.contains ("name:" ++ s) && uk r (("name:" ++ s) :: keys)

theorem name_inj {a b : String} : "name:" ++ a = "name:" ++ b ↔ a = b := by
  constructor
  · intro h
    have := congrArg String.toList h
    simp only [String.toList_append, List.append_cancel_left_eq] at this
    exact String.toList_inj.1 this
  · rintro rfl; rfl

theorem uk_iff (l : List (Node E)) (keys : List String) :
    uk l keys = true ↔ (∀ n ∈ l, ∃ s, nameOfN n = some s ∧ ("name:" ++ s) ∉ keys) ∧ (l.map nameOfN).Nodup := by
  induction l generalizing keys with
  | nil => simp [uk]
  | cons n r ih =>
    unfold uk
    cases hn : nameOfN n with
    | none => simp [hn]
    | some s =>
      simp only [Bool.and_eq_true, Bool.not_eq_true', ih, List.mem_cons, forall_eq_or_imp, List.map_cons,
        List.nodup_cons, hn]
      constructor
      · rintro ⟨h1, h2, h3⟩
        refine ⟨⟨⟨s, rfl, by simpa using h1⟩, fun n' hn' => ?_⟩, ?_, h3⟩
        · obtain ⟨s', h, h'⟩ := h2 n' hn'
          simp only [not_or] at h'
          exact ⟨s', h, h'.2⟩
        · intro hm
          obtain ⟨n', hn', he⟩ := List.mem_map.1 hm
          obtain ⟨s', h, h'⟩ := h2 n' hn'
          simp only [not_or] at h'
          rw [h] at he
          cases he
          exact h'.1 rfl
      · rintro ⟨⟨⟨s', h1, h1'⟩, h2⟩, h3, h4⟩
        cases h1
        refine ⟨by simpa using h1', fun n' hn' => ?_, h4⟩
        obtain ⟨s', h, h'⟩ := h2 n' hn'
        refine ⟨s', h, ?_⟩
        simp only [not_or, name_inj]
        refine ⟨?_, h'⟩
        rintro rfl
        exact h3 (List.mem_map.2 ⟨_, hn', h⟩)

theorem uk_uniqN (l : List (Node E)) : uk l [] = uniqN l := by
  rw [Bool.eq_iff_iff, uk_iff, uniqN]
  simp only [List.not_mem_nil, not_false_eq_true, and_true, Bool.and_eq_true, List.all_eq_true,
    Option.isSome_iff_exists, decide_eq_true_eq]

theorem uniqueKeys_plain {L : Lang E} (rec : FlowFn E) (env : Env E) (l : List (Node E)) (h : PlainL L l)
    (i : Nat) (keys : List String) : uniqueKeys rec "" env i l keys = .ok (uk l keys) := by
  induction l generalizing i keys with
  | nil => rfl
  | cons n r ih =>
    simp only [PlainL] at h
    unfold uniqueKeys uk
    rw [stepName_plain rec i h.1 env]
    cases nameOfN n with
    | none => rfl
    | some s =>
      simp only [bind, Except.bind, pure, Except.pure]
      cases hc : keys.contains ("name:" ++ s) with
      | true => simp
      | false => simp [ih h.2]

theorem flowEntries_plain {L : Lang E} (rec : FlowFn E) (env : Env E) (u : Bool) (l : List (Node E))
    (h : PlainL L l) (i : Nat) (hu : u = true → ∀ n ∈ l, (nameOfN n).isSome)
    (hr : ∀ n ∈ l, ∀ step, rec (env.withPath step) n false false
      = .ok (ovN env.stubs false (env.stubPath ++ [step]) n))
    (hov : ∀ n ∈ l, ∀ step, (ovN env.stubs false (env.stubPath ++ [step]) n).ann.undefined = false) :
    flowEntries rec "" env u false i l = .ok (ovL env.stubs u env.stubPath i l) := by
  induction l generalizing i with
  | nil => rfl
  | cons n r ih =>
    simp only [PlainL] at h
    unfold flowEntries ovL
    have ih' := ih h.2 (i + 1) (fun hu' n hn => hu hu' n (List.mem_cons_of_mem _ hn))
      (fun n hn => hr n (List.mem_cons_of_mem _ hn)) (fun n hn => hov n (List.mem_cons_of_mem _ hn))
    have hstep : ∃ b, stepName rec i n "" env u = .ok (entryStep u i n, b, true, b) := by
      cases u with
      | false => exact ⟨false, by rw [stepName_plain_idx rec i h.1 env]; rfl⟩
      | true =>
        rw [stepName_plain rec i h.1 env]
        have := hu rfl n (by simp)
        cases hn : nameOfN n with
        | none => simp [hn] at this
        | some s => exact ⟨true, by simp [entryStep, hn]⟩
    obtain ⟨b, hb⟩ := hstep
    rw [hb]
    simp only [flowEntry, Except.map, Except.bind, Bool.and_false, if_true, Bool.false_eq_true, if_false,
      hr n (by simp), ih', hov n (by simp), Bool.not_false]

theorem mapEntries_plain {L : Lang E} (rec : FlowFn E) (v : MapVars E) (m acc : List (String × Node E))
    (hv : v.processed = true) (hf : v.flags = {}) (hm : MapOK m) (h : PlainM L m)
    (hd : ∀ k ∈ mkeys m, mget acc k = none)
    (hr : ∀ e ∈ m, rec (v.env.withPath e.1) e.2 true false
      = .ok (ovN v.env.stubs true (v.env.stubPath ++ [e.1]) e.2))
    (hov : ∀ e ∈ m, (ovN v.env.stubs true (v.env.stubPath ++ [e.1]) e.2).ann.undefined = false) :
    mapEntries L rec v MERGEKEY true m acc = .ok (acc ++ ovM v.env.stubs v.env.stubPath m) := by
  induction m generalizing acc with
  | nil => simp [mapEntries, ovM]
  | cons e r ih =>
    obtain ⟨k, n⟩ := e
    simp only [PlainM] at h
    simp only [MapOK, mkeys, List.map_cons, List.nodup_cons] at hm
    unfold mapEntries ovM
    have hk : k ≠ MERGEKEY := h.1.2.1
    have hpi : v.flags.propagateImplied = false := by rw [hf]; rfl
    have h1 := hr (k, n) (by simp)
    have h2 := hov (k, n) (by simp)
    simp only at h1 h2
    simp only [mapEntry, storeEntry, hk, if_false, hv, if_true, h.1.2.2.2, h1, Except.map, Except.bind, h2, hpi,
      Bool.false_eq_true]
    have hak : mget acc k = none := hd k (by simp [mkeys])
    rw [ih _ hm.2 h.2.2 _ (fun e he => hr e (List.mem_cons_of_mem _ he))
      (fun e he => hov e (List.mem_cons_of_mem _ he)), mset_of_none hak]
    · simp
    · intro k' hk'
      rw [mget_mset_ne]
      · exact hd k' (by simp [mkeys] at hk' ⊢; exact Or.inr hk')
      · rintro rfl; exact hm.1 hk'

theorem injectFields_plain {L : Lang E} {sm : List (String × Node E)} (h : PlainM L sm)
    (m : List (String × Node E)) : injectFields sm m = m := by
  unfold injectFields
  induction sm with
  | nil => rfl
  | cons e r ih =>
    obtain ⟨k, n⟩ := e
    simp only [PlainM] at h
    simp only [List.foldl_cons]
    rw [show n.flags.isInject = false from (plain_flags h.2.1).1]
    exact ih h.2.2

/-- A pass keeps plain documents plain. -/
theorem ovN_plain {L : Lang E} {stubs : List (Node E)} (hs : ∀ s ∈ stubs, Plain L s) :
    (∀ (n : Node E) so p, Plain L n → Plain L (ovN stubs so p n)) := by
  have leaf : ∀ (n : Node E) (so : Bool) p, Plain L n →
      Plain L (if so then (findInStubs false stubs p).getD n else n) := by
    intro n so p hn
    cases so with
    | false => simpa using hn
    | true =>
      simp only [if_true]
      cases h : findInStubs false stubs p with
      | none => exact hn
      | some o => exact findInStubs_plain hs h
  have keysM : ∀ p (m : List (String × Node E)), mkeys (ovM stubs p m) = mkeys m := by
    intro p m
    induction m with
    | nil => rfl
    | cons e r ih => obtain ⟨k, n⟩ := e; simp only [ovM, mkeys, List.map_cons] at *; rw [ih]
  intro n
  refine Node.rec (motive_1 := fun v => ∀ so p s a, PlainV L a v → Plain L (ovV stubs so p s a v))
    (motive_2 := fun n => ∀ so p, Plain L n → Plain L (ovN stubs so p n))
    (motive_3 := fun l => ∀ u p i, PlainL L l → PlainL L (ovL stubs u p i l))
    (motive_4 := fun m => ∀ p, PlainM L m → PlainM L (ovM stubs p m))
    (motive_5 := fun e => ∀ so p, Plain L e.2 → Plain L (ovN stubs so p e.2))
    ?_ ?_ ?_ ?_ ?_ ?_ ?_ ?_ ?_ ?_ ?_ ?_ ?_ ?_ ?_ ?_ n
  · intro so p s a h; exact leaf (.mk .nil s a) so p h
  · intro b so p s a h; exact leaf (.mk (.bool b) s a) so p h
  · intro b so p s a h; exact leaf (.mk (.int b) s a) so p h
  · intro b so p s a h; exact leaf (.mk (.float b) s a) so p h
  · intro b so p s a h; exact leaf (.mk (.str b) s a) so p h
  · intro l ih so p s a h
    simp only [PlainV] at h
    simp only [ovV, Plain, PlainV]
    refine ⟨?_, ih _ _ _ h.2⟩
    split
    · exact Or.inr rfl
    · exact h.1
  · intro m ih so p s a h
    simp only [PlainV] at h
    simp only [ovV, Plain, PlainV]
    refine ⟨h.1, ?_, ih _ h.2.2⟩
    have := h.2.1
    simp only [MapOK, keysM] at *
    exact this
  · intro e so p s a h; exact h.elim
  · intro e _ so p s a h; exact h.elim
  · intro e so p s a h; exact h.elim
  · intro v s a ih so p h
    exact ih so p s a h
  · intro u p i _; trivial
  · intro n l ih1 ih2 u p i h
    simp only [PlainL] at h
    exact ⟨ih1 _ _ h.1, ih2 _ _ _ h.2⟩
  · intro p _; trivial
  · intro e r ih1 ih2 p h
    obtain ⟨k, n⟩ := e
    simp only [PlainM] at h
    exact ⟨h.1, ih1 _ _ h.2.1, ih2 _ h.2.2⟩
  · intro k n ih so p h
    exact ih so p h

theorem depthL_le {l : List (Node E)} {n : Node E} (h : n ∈ l) : depth n ≤ depthL l := by
  induction l with
  | nil => simp at h
  | cons a r ih =>
    simp only [depthL]
    rcases List.mem_cons.1 h with rfl | h
    · exact Nat.le_max_left ..
    · exact Nat.le_trans (ih h) (Nat.le_max_right ..)

theorem depthM_le {m : List (String × Node E)} {e : String × Node E} (h : e ∈ m) : depth e.2 ≤ depthM m := by
  induction m with
  | nil => simp at h
  | cons a r ih =>
    obtain ⟨k, n⟩ := a
    simp only [depthM]
    rcases List.mem_cons.1 h with rfl | h
    · exact Nat.le_max_left ..
    · exact Nat.le_trans (ih h) (Nat.le_max_right ..)

/-- One pass over a plain node. -/
theorem flow_plain (L : Lang E) {stubs : List (Node E)} (hs : ∀ s ∈ stubs, Plain L s) :
    ∀ (fuel : Nat) (n : Node E) (env : Env E) (so : Bool), env.stubs = stubs → env.nomerge = false →
      Plain L n → depth n < fuel → flow L fuel env n so false = .ok (ovN stubs so env.stubPath n) := by
  intro fuel
  induction fuel with
  | zero => intro n env so _ _ _ h; omega
  | succ f ih =>
    intro n env so he hn hp hd
    subst he
    obtain ⟨v, s, a⟩ := n
    have hred : ∀ a : Ann, (a = bare ∨ a = bareList) → a.redirectPath = none ∧ a.replace = false ∧ a.merged = false
        ∧ a.keyName = "" ∧ a.tag = "" ∧ a.failed = false := by
      rintro a (rfl | rfl) <;> decide
    have ha := hred a (plain_ann hp)
    simp only [flow, flowStep]
    simp only [Node.ann, ha.1, ha.2.1, ha.2.2.1, Node.val, Bool.not_false, if_true, Bool.and_false,
      Bool.false_eq_true, if_false]
    cases v with
    | nil => simp only [Plain, PlainV] at hp; subst hp; simp only [ovN, ovV]; exact congrArg _ (override_bare hs hn ..)
    | bool b => simp only [Plain, PlainV] at hp; subst hp; simp only [ovN, ovV]; exact congrArg _ (override_bare hs hn ..)
    | int b => simp only [Plain, PlainV] at hp; subst hp; simp only [ovN, ovV]; exact congrArg _ (override_bare hs hn ..)
    | float b => simp only [Plain, PlainV] at hp; obtain ⟨rfl, _⟩ := hp; simp only [ovN, ovV]; exact congrArg _ (override_bare hs hn ..)
    | str b =>
      simp only [Plain, PlainV] at hp
      obtain ⟨rfl, hp⟩ := hp
      simp only [ovN, ovV]
      have : flowString L (.mk (.str b) s bare) env = .mk (.str b) s bare := by
        simp [flowString, embedded, Node.val, hp]
      simp only [this, Node.val, Val.isExpr, Bool.false_eq_true, if_false]
      exact congrArg _ (override_bare hs hn ..)
    | expr b => simp [Plain, PlainV] at hp
    | templ b => simp [Plain, PlainV] at hp
    | lambda b => simp [Plain, PlainV] at hp
    | map m =>
      simp only [Plain, PlainV] at hp
      obtain ⟨rfl, hmo, hpm⟩ := hp
      simp only [ovN, ovV]
      unfold flowMap
      rw [inheritedFlags_plain hs]
      have hmk : mergeKey m = some (MERGEKEY, none) := by simp [mergeKey, mget_merge_none hpm]
      simp only [hmk, mapVars, Except.bind, mapNew, mapVars0, Bool.not_false, if_true]
      have hrec : ∀ e ∈ m, flow L f ((env.withScope m).withPath e.1) e.2 true false
          = .ok (ovN env.stubs true (env.stubPath ++ [e.1]) e.2) := by
        intro e hem
        have h1 := depthM_le hem
        simp only [depth, depthV] at hd
        exact ih e.2 ((env.withScope m).withPath e.1) true rfl hn (PlainM_iff.1 hpm e hem).2 (by omega)
      have hund : ∀ e ∈ m, (ovN env.stubs true (env.stubPath ++ [e.1]) e.2).ann.undefined = false :=
        fun e hem => (plain_flags (ovN_plain hs e.2 true (env.stubPath ++ [e.1]) (PlainM_iff.1 hpm e hem).2)).2.2.2.2.2
      rw [mapEntries_plain (L := L) (flow L f) _ m [] rfl rfl hmo hpm (by simp [mget]) hrec hund]
      simp only [List.nil_append, Except.map, mapNode, Bool.false_eq_true, if_false]
      have hinj : injectStub (findInStubs false env.stubs env.stubPath) {} (ovM env.stubs env.stubPath m)
          = ovM env.stubs env.stubPath m := by
        unfold injectStub
        cases hf : findInStubs false env.stubs env.stubPath with
        | none => rfl
        | some o =>
          have ho := findInStubs_plain hs hf
          obtain ⟨ov, os, oa⟩ := o
          cases ov <;> simp only [Node.val, Bool.not_false, if_true]
          simp only [Plain, PlainV] at ho
          exact injectFields_plain ho.2.2 _
      show Except.ok (updateNode _ _ _) = _
      congr 1
      simp only [Env.withScope] at *
      rw [hinj]
      rfl
    | list l =>
      have hp' := hp
      simp only [Plain, PlainV] at hp
      obtain ⟨hal, hpl⟩ := hp
      simp only [ovN, ovV]
      unfold flowList
      rw [processMerges_plain L _ (.mk (.list l) s a) _ _ hs hpl hal]
      rw [inheritedFlags_plain hs]
      simp only [Node.ann, ha.2.2.1, Bool.false_eq_true, if_false, Except.bind, listNew, if_true]
      have h1 : ("" : String) ≠ NO_LIST_KEY := by decide
      simp only [ne_eq, h1, not_false_eq_true, if_true]
      rw [uniqueKeys_plain (L := L) _ _ _ hpl, uk_uniqN]
      simp only
      have hrec : ∀ n ∈ l, ∀ step, flow L f (env.withPath step) n false false
          = .ok (ovN env.stubs false (env.stubPath ++ [step]) n) := by
        intro n hnl step
        have h1 := depthL_le hnl
        simp only [depth, depthV] at hd
        exact ih n (env.withPath step) false rfl hn (PlainL_iff.1 hpl n hnl) (by omega)
      have hund : ∀ n ∈ l, ∀ step, (ovN env.stubs false (env.stubPath ++ [step]) n).ann.undefined = false :=
        fun n hnl step => (plain_flags (ovN_plain hs n false _ (PlainL_iff.1 hpl n hnl))).2.2.2.2.2
      rw [flowEntries_plain (L := L) (flow L f) env (uniqN l) l hpl 0 ?_ hrec hund]
      · simp only [Except.map, listNode]
        cases hf : findInStubs false env.stubs env.stubPath with
        | none =>
          rcases hal with rfl | rfl <;>
          simp [injectList, Node.flags, Node.ann, bare, bareList, Flags.add, Node.withVal, Node.src]
        | some o =>
          have ho := findInStubs_plain hs hf
          have hfi : ∀ sl, o.val = .list sl → sl.filter (fun x => x.flags.isInject) = [] := by
            intro sl hsl
            obtain ⟨ov, os, oa⟩ := o
            simp only [Node.val] at hsl
            subst hsl
            simp only [Plain, PlainV] at ho
            rw [List.filter_eq_nil_iff]
            intro x hx
            simp [(plain_flags (PlainL_iff.1 ho.2 x hx)).1]
          have hinj : injectList (some o) (Node.mk (Val.list l) s a).flags {} (ovL env.stubs (uniqN l) env.stubPath 0 l)
              = (Val.list (ovL env.stubs (uniqN l) env.stubPath 0 l),
                 if (Node.mk (Val.list l) s a).flags.injected then {} else { injected := true }) := by
            unfold injectList
            cases hi : (Node.mk (Val.list l) s a).flags.injected
            · cases hov : o.val <;> simp [hov]
              next sl => simpa using hfi sl hov
            · simp
          rw [hinj]
          rcases hal with rfl | rfl <;>
          simp [Node.flags, Node.ann, bare, bareList, Flags.add, Node.withVal, Node.src,
              Node.addFlags, Node.withAnn, Node.val]
      · intro hu n hnl
        simp only [uniqN, Bool.and_eq_true, List.all_eq_true] at hu
        exact hu.1 n hnl

end Spiff
