import Verif.Spec.ListMerge
import Verif.Props.Find
import Verif.Lemmas.NodeSimp
/-
C50: list merge by key.
-/
namespace Spiff
open Spec
variable {E : Type}

theorem key_hasName {key s : String} {n : Node E} : Key key s n ↔ HasName false true key s n := by
  unfold Key HasName
  simp

theorem key_unique {key s t : String} {n : Node E} (h : Key key s n) (h' : Key key t n) : s = t := by
  obtain ⟨m, v, h1, h2, h3⟩ := h
  obtain ⟨m', v', h4, h5, h6⟩ := h'
  rw [h1] at h4; cases h4
  rw [h2] at h5; cases h5
  rw [h3] at h6; cases h6; rfl

theorem findStr_key {key : String} (hk : ∀ i, ¬ IndexStep key i) (n : Node E) (s : String) : findStr false true n [key] = some s ↔ Key key s n := by
  unfold findStr
  constructor
  · intro h
    cases hf : findR false true n [key] with
    | found c =>
      rw [hf] at h
      have hr := (find_iff_reaches false true n c [key]).1 hf
      obtain ⟨cv, cs, ca⟩ := c
      cases cv <;> simp only [Look.toOption, reduceCtorEq, Option.some.injEq] at h
      subst h
      cases hr with
      | step _ c' _ _ _ hs hr' =>
        cases hr'
        cases hs with
        | field _ m _ hv _ hc => exact ⟨m, _, hv, hc, rfl⟩
        | index _ _ _ i _ _ _ hi => exact absurd hi (hk i)
        | named _ _ _ _ _ _ _ _ _ _ _ _ _ hc =>
          obtain ⟨m, v, h1, _⟩ := hc
          cases h1
    | missing => rw [hf] at h; simp [Look.toOption] at h
    | panic => rw [hf] at h; simp [Look.toOption] at h
  · rintro ⟨m, v, h1, h2, h3⟩
    have hf : findR false true n [key] = .found v :=
      (find_iff_reaches false true n v [key]).2 (.step _ v _ _ _ (.field _ _ m _ h1 (.inl rfl) h2) (.here _))
    rw [hf]
    obtain ⟨vv, vs, va⟩ := v
    cases h3
    rfl

theorem first_key {key s : String} : ∀ {b : List (Node E)}, (∃ x ∈ b, HasName false true key s x) →
    ∃ l c r, b = l ++ c :: r ∧ (∀ x ∈ l, ¬ HasName false true key s x) ∧ HasName false true key s c := by
  intro b
  induction b with
  | nil => rintro ⟨x, hx, _⟩; cases hx
  | cons y b ih =>
    rintro ⟨x, hx, hn⟩
    by_cases hy : HasName false true key s y
    · exact ⟨[], y, b, rfl, by simp, hy⟩
    · rcases List.mem_cons.1 hx with rfl | hx
      · exact absurd hn hy
      · obtain ⟨l, c, r, h1, h2, h3⟩ := ih ⟨x, hx, hn⟩
        refine ⟨y :: l, c, r, by rw [h1]; rfl, ?_, h3⟩
        intro z hz
        rcases List.mem_cons.1 hz with rfl | hz
        · exact hy
        · exact h2 z hz

theorem findRaw_key {key s : String} (hk : key ≠ "") (hs : SimpleName s) (b : List (Node E)) (src : String) :
    (findRaw false ((Node.new (.list b) src).keyNameNode key) [s]).isSome = true ↔ ∃ x ∈ b, Key key s x := by
  have hv : ((Node.new (.list b) src).keyNameNode key).val = .list b := by
    rfl
  have hkn : ((Node.new (.list b) src).keyNameNode key).ann.keyName = key := by
    show (Ann.addKeyName {} key).keyName = key; simp [Ann.addKeyName, hk]
  have hiff : (findRaw false ((Node.new (.list b) src).keyNameNode key) [s]).isSome = true ↔
      ∃ c, Selects false true ((Node.new (.list b) src).keyNameNode key) s c := by
    unfold findRaw
    constructor
    · intro h
      cases hf : findR false true ((Node.new (.list b) src).keyNameNode key) [s] with
      | found c =>
        have := (find_iff_reaches false true _ c [s]).1 hf
        cases this with
        | step _ c' _ _ _ q1 q2 => exact ⟨c', q1⟩
      | missing => rw [hf] at h; simp [Look.toOption] at h
      | panic => rw [hf] at h; simp [Look.toOption] at h
    · rintro ⟨c, hc⟩
      have : findR false true ((Node.new (.list b) src).keyNameNode key) [s] = .found c :=
        (find_iff_reaches false true _ c [s]).2 (.step _ c _ _ _ hc (.here _))
      rw [this]; rfl
  rw [hiff]
  constructor
  · rintro ⟨c, hc⟩
    cases hc with
    | field _ m _ hv' => rw [hv] at hv'; cases hv'
    | index _ _ _ i _ _ _ hi => exact absurd hi (hs.1 i)
    | named _ l before after _ k nm hv' _ _ hn hl _ hc =>
      rw [hv] at hv'; cases hv'
      rw [hkn, if_neg hk] at hn
      rcases hn with ⟨k', _, _, h1, _⟩ | ⟨rfl, rfl, _⟩
      · exfalso
        apply hs.2
        rw [h1]; simp
      · exact ⟨c, by rw [hl]; simp, key_hasName.2 hc⟩
  · rintro ⟨x, hx, hkx⟩
    obtain ⟨l, c, r, h1, h2, h3⟩ := first_key ⟨x, hx, key_hasName.1 hkx⟩
    refine ⟨c, .named _ _ b l r _ key s hv (.inl rfl) hs.1 (.inr ⟨?_, rfl, .inl hs.2⟩) h1 h2 h3⟩
    rw [hkn, if_neg hk]

/-- C50: the entries inserted by a list merge are those whose key is not yet used in the list, in order. Entries without key are always inserted.
(Keys of the form `[…]` or `x:y` are handled differently, see `index_key_defect` and `colon_key_defect`.) -/
theorem new_entries_inserted {k : String} {a b : List (Node E)} (hk : ∀ i, ¬ IndexStep (listKey k) i)
    (hs : ∀ n ∈ a, ∀ s, Key (listKey k) s n → SimpleName s) : Inserted (listKey k) b a (newEntries a b k) := by
  have hne : listKey k ≠ "" := by
    unfold listKey
    split
    · decide
    · assumption
  have heq : ∀ a : List (Node E), newEntries a b k = (a.filter (fun val =>
    match findStr false true val [listKey k] with
    | some name => (findRaw false ((Node.new (.list b) "some map").keyNameNode (listKey k)) [name]).isNone
    | none => true)).map Node.mergedNode := fun a => rfl
  induction a with
  | nil => exact .nil
  | cons n a ih =>
    have ih' := ih (fun n hn => hs n (List.mem_cons_of_mem _ hn))
    rw [heq] at ih' ⊢
    rw [List.filter_cons]
    cases hf : findStr false true n [listKey k] with
    | none =>
      simp only [if_true, List.map_cons]
      refine .new ?_ ih'
      rintro ⟨s, h1, _⟩
      rw [(findStr_key hk n s).2 h1] at hf; cases hf
    | some s =>
      have hkey := (findStr_key hk n s).1 hf
      have hfr := findRaw_key hne (hs n (List.mem_cons_self ..) s hkey) b "some map"
      simp only
      by_cases hp : ∃ x ∈ b, Key (listKey k) s x
      · have := hfr.2 hp
        rw [if_neg (by rw [Option.isNone_iff_eq_none]; intro h0; rw [h0] at this; cases this)]
        exact .known ⟨s, hkey, hp⟩ ih'
      · have : ¬ (findRaw false ((Node.new (.list b) "some map").keyNameNode (listKey k)) [s]).isSome = true := fun h => hp (hfr.1 h)
        rw [if_pos (by simpa using this), List.map_cons]
        refine .new ?_ ih'
        rintro ⟨t, h1, h2⟩
        have := key_unique hkey h1
        subst this
        exact hp h2

theorem inserted_mem {key : String} {b a r : List (Node E)} (h : Inserted key b a r) : ∀ x ∈ r, ∃ n ∈ a, x = n.mergedNode ∧ ¬ Present key b n := by
  induction h with
  | nil => intro x hx; cases hx
  | new hn _ ih =>
    intro x hx
    rcases List.mem_cons.1 hx with rfl | hx
    · exact ⟨_, List.mem_cons_self .., rfl, hn⟩
    · obtain ⟨n, h1, h2⟩ := ih x hx; exact ⟨n, List.mem_cons_of_mem _ h1, h2⟩
  | known _ _ ih =>
    intro x hx
    obtain ⟨n, h1, h2⟩ := ih x hx; exact ⟨n, List.mem_cons_of_mem _ h1, h2⟩

theorem key_mergedNode {key s : String} {n : Node E} : Key key s n.mergedNode ↔ Key key s n := by
  have : n.mergedNode.val = n.val := by cases n; rfl
  unfold Key; rw [this]

theorem inserted_distinct {key : String} {b a r : List (Node E)} (h : Inserted key b a r) (hd : DistinctKeys key a) : DistinctKeys key r := by
  induction h with
  | nil => exact List.Pairwise.nil
  | new hn hi ih =>
    unfold DistinctKeys at hd ⊢
    rw [List.pairwise_cons] at hd ⊢
    refine ⟨fun y hy s h1 h2 => ?_, ih hd.2⟩
    obtain ⟨z, hz, rfl, _⟩ := inserted_mem hi y hy
    rw [key_mergedNode] at h1 h2
    exact hd.1 z hz s h1 h2
  | known _ _ ih =>
    unfold DistinctKeys at hd
    rw [List.pairwise_cons] at hd
    exact ih hd.2

/-- C50: a list merge does not introduce duplicates: with different keys in the list and in the inserted list, the keys of the result are different. -/
theorem merge_adds_no_duplicates {key : String} {pre post a r : List (Node E)} {m : Node E} (hd : DistinctKeys key (pre ++ m :: post)) (ha : DistinctKeys key a)
    (h : Inserted key (pre ++ m :: post) a r) : DistinctKeys key (pre ++ r ++ post) := by
  have hr := inserted_distinct h ha
  have hnot : ∀ x ∈ r, ∀ y ∈ pre ++ m :: post, ∀ s, Key key s x → ¬ Key key s y := by
    intro x hx y hy s h1 h2
    obtain ⟨z, hz, rfl, hn⟩ := inserted_mem h x hx
    rw [key_mergedNode] at h1
    exact hn ⟨s, h1, y, hy, h2⟩
  unfold DistinctKeys at hd hr ⊢
  rw [List.pairwise_append, List.pairwise_cons] at hd
  rw [List.pairwise_append, List.pairwise_append]
  refine ⟨⟨hd.1, hr, fun x hx y hy s h1 h2 => hnot y hy x (by simp [hx]) s h2 h1⟩, hd.2.1.2, ?_⟩
  intro x hx y hy s h1 h2
  rcases List.mem_append.1 hx with hx | hx
  · exact hd.2.2 x hx y (List.mem_cons_of_mem _ hy) s h1 h2
  · exact hnot x hx y (by simp [hy]) s h1 h2

/-! ### the position of the insertion -/

/-- an entry without special meaning for the list: no merge expression, no `key:` tag -/
def PlainEntry (n : Node E) : Prop := listEntryMerge n = none ∧ processKeyTag n = (n, "")

theorem lm_entries_plain {L : Lang E} {rec : FlowFn E} {env : Env E} {orig : Node E} {root : List (Node E)} : ∀ (l rest : List (Node E)) (v : ListVars E),
    (∀ n ∈ l, PlainEntry n) →
    listEntries L rec env orig root (l ++ rest) v = listEntries L rec env orig root rest { v with spliced := v.spliced ++ l } := by
  intro l
  induction l with
  | nil => intro rest v _; simp
  | cons n l ih =>
    intro rest v h
    have hn := h n (List.mem_cons_self ..)
    rw [List.cons_append, listEntries, hn.1]
    simp only
    have : spliceEntry v n = { v with spliced := v.spliced ++ [n] } := by
      unfold spliceEntry; rw [hn.2]; simp
    rw [this, ih _ _ (fun m hm => h m (List.mem_cons_of_mem _ hm))]
    simp

/-- the key field of the list: the one of the merge result, or of the list -/
def mergeKeyName (orig result : Node E) : String := if result.ann.keyName ≠ "" then result.ann.keyName else orig.ann.keyName

theorem listEntry_list {L : Lang E} {orig inl result m : Node E} {root inline : List (Node E)} {q : String} (hv : result.val = .list inline)
    (v : ListVars E) (hk : v.keyName = orig.ann.keyName) : listEntry L orig root m inl result q v =
      (if result.ann.replace then
        ({ v with keyName := mergeKeyName orig result, merged := true, replaced := true, redirect := result.ann.redirectPath, spliced := newEntries inline root (mergeKeyName orig result), process := false }, true)
      else ({ v with keyName := mergeKeyName orig result, merged := true, replaced := false, redirect := result.ann.redirectPath, spliced := v.spliced ++ newEntries inline root (mergeKeyName orig result) }, false)) := by
  unfold listEntry mergeKeyName
  rw [hv]
  by_cases hn : result.ann.keyName ≠ "" <;> cases hrep : result.ann.replace <;> simp [hn, hk]

theorem listEntries_merge {L : Lang E} {rec : FlowFn E} {env : Env E} {orig inl result m : Node E} {root pre post inline : List (Node E)} {q : String}
    (hpre : ∀ n ∈ pre, PlainEntry n) (hpost : ∀ n ∈ post, PlainEntry n) (hm : listEntryMerge m = some (inl, q))
    (hr : rec env inl false false = .ok result) (hv : result.val = .list inline) (v : ListVars E) (hk : v.keyName = orig.ann.keyName) :
    ∃ w, listEntries L rec env orig root (pre ++ m :: post) v = .ok w ∧ w.merged = true ∧ w.keyName = mergeKeyName orig result ∧
      w.spliced = (if result.ann.replace then newEntries inline root (mergeKeyName orig result)
        else v.spliced ++ pre ++ newEntries inline root (mergeKeyName orig result) ++ post) := by
  rw [lm_entries_plain pre (m :: post) _ hpre, listEntries, hm]
  simp only [hr]
  show ∃ w, (if (listEntry L orig root m inl result q { v with spliced := v.spliced ++ pre }).2 then
    Except.ok (listEntry L orig root m inl result q { v with spliced := v.spliced ++ pre }).1
    else listEntries L rec env orig root post (listEntry L orig root m inl result q { v with spliced := v.spliced ++ pre }).1) = Except.ok w ∧ _
  rw [listEntry_list hv { v with spliced := v.spliced ++ pre } hk]
  cases hrep : result.ann.replace with
  | true =>
    simp only [if_true]
    exact ⟨_, rfl, rfl, rfl, rfl⟩
  | false =>
    simp only [Bool.false_eq_true, if_false]
    have h2 := lm_entries_plain (L := L) (rec := rec) (env := env) (orig := orig) (root := root) post []
      ({ v with keyName := mergeKeyName orig result, merged := true, replaced := false, redirect := result.ann.redirectPath, spliced := v.spliced ++ pre ++ newEntries inline root (mergeKeyName orig result) }) hpost
    rw [List.append_nil] at h2
    rw [h2, listEntries]
    exact ⟨_, rfl, rfl, rfl, rfl⟩

/-- C50: the position: the new entries of the merged list replace the merge entry, the other entries are kept in their order; with `replace` only
the new entries are used. -/
theorem list_merge_spliced {L : Lang E} {rec : FlowFn E} {env : Env E} {orig inl result m : Node E} {pre post inline : List (Node E)} {q : String}
    {template : Bool} (hpre : ∀ n ∈ pre, PlainEntry n) (hpost : ∀ n ∈ post, PlainEntry n) (hm : listEntryMerge m = some (inl, q))
    (hr : rec env inl false false = .ok result) (hv : result.val = .list inline) :
    ∃ v, processMerges L rec orig (pre ++ m :: post) env template = .ok v ∧ v.merged = true ∧ v.keyName = mergeKeyName orig result ∧
      v.spliced = (if result.ann.replace then newEntries inline (pre ++ m :: post) (mergeKeyName orig result)
        else pre ++ newEntries inline (pre ++ m :: post) (mergeKeyName orig result) ++ post) := by
  obtain ⟨w, h1, h2, h3, h4⟩ := listEntries_merge (L := L) (root := pre ++ m :: post) hpre hpost hm hr hv
    (listVars0 orig (inheritedFlags env).1 template) rfl
  unfold processMerges
  rw [h1]
  refine ⟨setNoMerge (orig.flags.nomerge || (pre ++ m :: post).any (isDirectMerge L)) w, rfl, ?_, ?_, ?_⟩
  · unfold setNoMerge; split <;> exact h2
  · unfold setNoMerge; split <;> exact h3
  · unfold setNoMerge; rw [show (if (orig.flags.nomerge || (pre ++ m :: post).any (isDirectMerge L)) = true then { w with flags := { w.flags with nomerge := true } } else w).spliced = w.spliced by split <;> rfl, h4]
    split <;> simp [listVars0]

/-! ### `key:` tags -/

theorem keyTag_tagged (nm : String) (h : nm.toList.head? ≠ some '!') : keyTag ("key:" ++ nm) = some (nm, false) := by
  unfold keyTag
  have : splitColon ("key:" ++ nm).toList = some ("key".toList, nm.toList) := by
    rw [String.toList_append]; rfl
  rw [this]
  simp only [if_true]
  cases hl : nm.toList with
  | nil => simp only [Option.some.injEq, Prod.mk.injEq, and_true]; rw [← String.toList_inj, hl]; rfl
  | cons c r =>
    have hc : c ≠ '!' := by rw [hl] at h; simpa using h
    split
    · rename_i heq; simp only [List.cons.injEq] at heq; exact absurd heq.1 hc
    · rw [← hl, String.ofList_toList]

theorem keyTag_negated (nm : String) : keyTag ("key:!" ++ nm) = some (nm, true) := by
  unfold keyTag
  have : splitColon ("key:!" ++ nm).toList = some ("key".toList, '!' :: nm.toList) := by
    rw [String.toList_append]; rfl
  rw [this]
  simp [String.ofList_toList]

/-- a field name without `key:` tag -/
def Untagged (k : String) : Prop := ∀ s : List Char, k.toList ≠ "key:".toList ++ s

theorem untagged_keyTag {k : String} (h : Untagged k) : keyTag k = none := by
  unfold keyTag
  cases hs : splitColon k.toList with
  | none => rfl
  | some ps =>
    obtain ⟨p, s⟩ := ps
    have := ((splitColon_some k.toList p s).1 hs).2.2
    simp only
    rw [if_neg]
    rintro rfl
    exact h s (by rw [this]; rfl)

theorem foldl_keyTag : ∀ (l : List String) (st : Option (String × Bool)), (∀ k ∈ l, Untagged k) → l.foldl keyTagStep st = st := by
  intro l
  induction l with
  | nil => intro st _; rfl
  | cons k l ih =>
    intro st h
    rw [List.foldl_cons, keyTagStep, untagged_keyTag (h k (List.mem_cons_self ..))]
    exact ih st (fun k' hk' => h k' (List.mem_cons_of_mem _ hk'))

theorem mget_skip {α : Type} : ∀ (l : List (String × α)) {r : List (String × α)} {t k : String} {x : α}, k ≠ t → mget (l ++ (t, x) :: r) k = mget (l ++ r) k := by
  intro l
  induction l with
  | nil => intro r t k x h; simp [mget, Ne.symm h]
  | cons e l ih =>
    intro r t k x h
    simp only [List.cons_append, mget, ih h]

theorem foldl_mset_append {α : Type} : ∀ (l acc : List (String × α)), MapOK (acc ++ l) → l.foldl (fun acc e => mset acc e.1 e.2) acc = acc ++ l := by
  intro l
  induction l with
  | nil => intro acc _; simp
  | cons e l ih =>
    intro acc h
    have hn : mget acc e.1 = none := by
      rw [mget_none_iff]
      simp only [MapOK, mkeys, List.map_append, List.map_cons, List.nodup_append] at h
      exact fun hm => h.2.2 _ hm _ (List.mem_cons_self ..) rfl
    rw [List.foldl_cons, mset_of_none hn, ih _ (by simpa using h)]
    simp

/-- C50: the `key:` tag: the field loses the tag and becomes the key field of the list, all other fields are kept; with `!` the list has no key
field. -/
theorem key_tag {n : Node E} {l r : List (String × Node E)} {t nm : String} {x : Node E} {no : Bool} (hv : n.val = .map (l ++ (t, x) :: r))
    (ht : (no = false ∧ t = "key:" ++ nm ∧ nm.toList.head? ≠ some '!') ∨ (no = true ∧ t = "key:!" ++ nm))
    (hu : ∀ k ∈ mkeys (l ++ r), Untagged k) (hn : nm ∉ mkeys (l ++ r)) (hok : MapOK (l ++ (t, x) :: r)) :
    ∃ m, (processKeyTag n).1.val = .map m ∧ (processKeyTag n).2 = (if no then NO_LIST_KEY else nm) ∧
      mget m nm = some x ∧ ∀ k, k ≠ nm → k ≠ t → mget m k = mget (l ++ (t, x) :: r) k := by
  have hkt : keyTag t = some (nm, no) := by
    rcases ht with ⟨rfl, rfl, h⟩ | ⟨rfl, rfl⟩
    · exact keyTag_tagged nm h
    · exact keyTag_negated nm
  have hul : ∀ k ∈ mkeys l, Untagged k := fun k hk => hu k (by simp only [mkeys, List.map_append, List.mem_append] at hk ⊢; exact .inl hk)
  have hur : ∀ k ∈ mkeys r, Untagged k := fun k hk => hu k (by simp only [mkeys, List.map_append, List.mem_append] at hk ⊢; exact .inr hk)
  have hfold : (mkeys (l ++ (t, x) :: r)).foldl keyTagStep none = some (nm, no) := by
    have : mkeys (l ++ (t, x) :: r) = mkeys l ++ t :: mkeys r := by simp [mkeys]
    rw [this, List.foldl_append, foldl_keyTag _ _ hul, List.foldl_cons, keyTagStep, hkt]
    exact foldl_keyTag _ _ hur
  have hok' : MapOK (l ++ (nm, x) :: r) := by
    simp only [MapOK, mkeys, List.map_append, List.map_cons, List.mem_append, not_or] at hn hok ⊢
    rw [List.nodup_append] at hok ⊢
    rw [List.nodup_cons] at hok ⊢
    refine ⟨hok.1, ⟨hn.2, hok.2.1.2⟩, fun a ha b hb => ?_⟩
    rcases List.mem_cons.1 hb with rfl | hb
    · rintro rfl; exact hn.1 ha
    · exact hok.2.2 a ha b (List.mem_cons_of_mem _ hb)
  have hmap : (l ++ (t, x) :: r).foldl (fun acc e => mset acc (untag e.1) e.2) [] = l ++ (nm, x) :: r := by
    have e1 : (l ++ (t, x) :: r).foldl (fun acc e => mset acc (untag e.1) e.2) [] = (l ++ (nm, x) :: r).foldl (fun acc e => mset acc e.1 e.2) [] := by
      rw [List.foldl_append, List.foldl_append, List.foldl_cons, List.foldl_cons]
      have hg : ∀ (l : List (String × Node E)), (∀ k ∈ mkeys l, Untagged k) → ∀ acc, l.foldl (fun acc e => mset acc (untag e.1) e.2) acc = l.foldl (fun acc e => mset acc e.1 e.2) acc := by
        intro l
        induction l with
        | nil => intro _ _; rfl
        | cons e l ih =>
          intro h acc
          rw [List.foldl_cons, List.foldl_cons, ih (fun k hk => h k (List.mem_cons_of_mem _ hk))]
          have : untag e.1 = e.1 := by unfold untag; rw [untagged_keyTag (h e.1 (List.mem_cons_self ..))]
          rw [this]
      rw [hg l hul, hg r hur]
      have : untag t = nm := by unfold untag; rw [hkt]
      simp only [this]
    rw [e1, foldl_mset_append (l ++ (nm, x) :: r) [] hok']
    rfl
  unfold processKeyTag
  rw [hv]
  simp only [hfold]
  refine ⟨l ++ (nm, x) :: r, ?_, trivial, ?_, ?_⟩
  · rw [hmap]; cases n; rfl
  · exact mget_of_mem hok' (by simp)
  · intro k h1 h2
    rw [mget_skip l h1, mget_skip l h2]

/-! ### defects and examples -/

def exEntry (name : String) : Node Unit := Node.new (.map [("name", Node.new (.str name) ""), ("v", Node.new (.int 1) "")]) ""

/-- C50 (defect): an entry with a name of the form `[0]` is never inserted into a non-empty list: the name is used as an index. -/
theorem index_key_defect : ¬ Present "name" [exEntry "x"] (exEntry "[0]") ∧ newEntries [exEntry "[0]"] [exEntry "x"] "" = [] := by
  constructor
  · rintro ⟨s, ⟨m, v, h1, h2, h3⟩, x, hx, m', v', h4, h5, h6⟩
    have hx := List.mem_singleton.1 hx
    subst hx
    cases h1; cases h4
    simp [exEntry, Node.new, Node.val, mget] at h2 h5
    subst h2; subst h5
    cases h3; simp [Node.val] at h6
  · have h1 : findStr false true (exEntry "[0]") ["name"] = some "[0]" := by decide +kernel
    have h2 : (findRaw false ((Node.new (.list [exEntry "x"]) "some map").keyNameNode "name") ["[0]"]).isSome = true := by decide +kernel
    unfold newEntries
    simp only [if_true]
    rw [List.filter_cons]
    simp only [h1]
    rw [if_neg (by
      intro h0
      simp only [decide_eq_true_eq, Option.isNone_iff_eq_none] at h0
      rw [h0] at h2; cases h2)]
    rfl

/-- C50 (defect): an entry whose name contains a colon is inserted although it is already there: the name is understood as `key:name`. -/
theorem colon_key_defect : Present "name" [exEntry "a:b"] (exEntry "a:b") ∧ (newEntries [exEntry "a:b"] [exEntry "a:b"] "").length = 1 := by
  constructor
  · have h : Key "name" "a:b" (exEntry "a:b") := ⟨_, Node.new (.str "a:b") "", rfl, by simp [mget], rfl⟩
    exact ⟨"a:b", h, _, List.mem_singleton.2 rfl, h⟩
  · decide +kernel

/-- the integer in the field `a` -/
def exFieldA (n : Node Unit) : Option Int := match n.val with
  | .map m => match mget m "a" with
    | some (.mk (.int i) _ _) => some i
    | _ => none
  | _ => none

/-- C50 (defect): with a field `a` and a field `key:a` the result depends on the iteration order of the map. -/
theorem key_tag_order_defect :
    exFieldA (processKeyTag (Node.new (.map [("a", Node.new (.int 1) ""), ("key:a", Node.new (.int 2) "")]) "")).1 = some 2 ∧
    exFieldA (processKeyTag (Node.new (.map [("key:a", Node.new (.int 2) ""), ("a", Node.new (.int 1) "")]) "")).1 = some 1 := by
  decide +kernel

theorem simple_abc {s : String} (h : s = "a" ∨ s = "b" ∨ s = "name") : SimpleName s := by
  constructor
  · rintro i ⟨ds, n, _, h1 | h1⟩
    · have := congrArg List.head? h1.1
      simp only [List.cons_append, List.head?_cons] at this
      rcases h with rfl | rfl | rfl <;> exact absurd this (by decide)
    · have := congrArg List.head? h1.1
      simp only [List.cons_append, List.head?_cons] at this
      rcases h with rfl | rfl | rfl <;> exact absurd this (by decide)
  · rcases h with rfl | rfl | rfl <;> decide

/-- the hypotheses of `new_entries_inserted` are met -/
example : (∀ i, ¬ IndexStep (listKey "") i) ∧ (∀ n ∈ [exEntry "a", exEntry "b", Node.new (.int 1) ""], ∀ s, Key (listKey "") s n → SimpleName s) := by
  refine ⟨(simple_abc (.inr (.inr rfl))).1, ?_⟩
  rintro n hn s ⟨m, v, h1, h2, h3⟩
  simp only [List.mem_cons, List.not_mem_nil, or_false] at hn
  rcases hn with rfl | rfl | rfl
  · cases h1
    simp [exEntry, Node.new, Node.val, mget, listKey] at h2
    subst h2; cases h3; exact simple_abc (.inl rfl)
  · cases h1
    simp [exEntry, Node.new, Node.val, mget, listKey] at h2
    subst h2; cases h3; exact simple_abc (.inr (.inl rfl))
  · cases h1
example : (newEntries [exEntry "a", exEntry "b", Node.new (.int 1) ""] [exEntry "a"] "").length = 2 := by decide +kernel

end Spiff
