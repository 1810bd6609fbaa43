import Verif.Lemmas.Reorder3
import Verif.Props.ListMerge
/-
The functions of one processing pass on documents that are equal up to the order of fields: the loop over the
fields of a map, injection, lists.
-/
namespace Spiff
open Spec
variable {E : Type}

/-! ### maps -/

/-- what is found under a key after storing `o` -/
def storedAt (v : MapVars E) (o old : Option (Node E)) : Option (Node E) :=
  match o with
  | some n => if n.ann.undefined then old else some (if v.flags.propagateImplied then n.addFlags { implied := true } else n)
  | none => old

theorem mget_storeEntry (v : MapVars E) (key : String) (o : Option (Node E)) (acc : List (String × Node E)) (k : String) :
    mget (storeEntry v key o acc) k = if k = key then storedAt v o (mget acc k) else mget acc k := by
  unfold storeEntry storedAt
  cases o with
  | none => simp
  | some n =>
    simp only
    split
    · simp
    · rw [mget_mset]

theorem storeEntry_ok (v : MapVars E) (key : String) (o : Option (Node E)) {acc : List (String × Node E)} (h : MapOK acc) : MapOK (storeEntry v key o acc) := by
  unfold storeEntry
  cases o with
  | none => exact h
  | some n =>
    simp only
    split
    · exact h
    · exact MapOK_mset h _ _

/-- the loop over the fields delivers, for every field, what the field delivers -/
theorem mapEntries_iff (L : Lang E) (rec : FlowFn E) (v : MapVars E) (mk : String) (so : Bool) {m : List (String × Node E)} (hm : MapOK m)
    (acc r : List (String × Node E)) (h : mapEntries L rec v mk so m acc = .ok r) :
    (∀ k n, mget m k = some n → ∃ o, mapEntry L rec v mk so k n = .ok o ∧ mget r k = storedAt v o (mget acc k)) ∧
    (∀ k, mget m k = none → mget r k = mget acc k) ∧ (MapOK acc → MapOK r) := by
  induction m generalizing acc with
  | nil => simp only [mapEntries, Except.ok.injEq] at h; subst h; simp [mget]
  | cons e rest ih =>
    obtain ⟨key, val⟩ := e
    simp only [MapOK, mkeys, List.map_cons, List.nodup_cons] at hm
    unfold mapEntries at h
    cases ho : mapEntry L rec v mk so key val with
    | error s => rw [ho] at h; cases h
    | ok o =>
      rw [ho] at h
      simp only [Except.bind] at h
      obtain ⟨h1, h2, h3⟩ := ih hm.2 _ h
      have hrk : mget rest key = none := mget_none_iff.2 hm.1
      refine ⟨fun k n hk => ?_, fun k hk => ?_, fun ha => h3 (storeEntry_ok v key o ha)⟩
      · simp only [mget] at hk
        by_cases hkk : key = k
        · subst hkk
          rw [if_pos rfl] at hk
          cases hk
          exact ⟨o, ho, by rw [h2 _ hrk, mget_storeEntry, if_pos rfl]⟩
        · rw [if_neg hkk] at hk
          obtain ⟨o', q1, q2⟩ := h1 k n hk
          rw [mget_storeEntry, if_neg (Ne.symm hkk)] at q2
          exact ⟨o', q1, q2⟩
      · simp only [mget] at hk
        by_cases hkk : key = k
        · rw [if_pos hkk] at hk; cases hk
        · rw [if_neg hkk] at hk
          rw [h2 k hk, mget_storeEntry, if_neg (Ne.symm hkk)]

theorem mapEntries_ok (L : Lang E) (rec : FlowFn E) (v : MapVars E) (mk : String) (so : Bool) {m : List (String × Node E)} (acc : List (String × Node E))
    (h : ∀ e ∈ m, ∃ o, mapEntry L rec v mk so e.1 e.2 = .ok o) : ∃ r, mapEntries L rec v mk so m acc = .ok r := by
  induction m generalizing acc with
  | nil => exact ⟨_, rfl⟩
  | cons e rest ih =>
    obtain ⟨key, val⟩ := e
    obtain ⟨o, ho⟩ := h _ (List.mem_cons_self ..)
    unfold mapEntries
    simp only at ho
    rw [ho]
    exact ih _ (fun e he => h e (List.mem_cons_of_mem _ he))

theorem mapEntry_same (L : Lang E) {rec rec' : FlowFn E} (hrec : RecSame rec rec') {v v' : MapVars E} (hv : VarsSame v v') (mk : String) (so : Bool)
    (key : String) {n n' : Node E} (h : Same n n') : Delivers (Both Same) (mapEntry L rec v mk so key n) (mapEntry L rec' v' mk so key n') := by
  unfold mapEntry
  rw [hv.processed]
  split
  · exact yields_ok hv.mergeval
  · split
    · exact yields_map (hrec _ _ _ _ _ _ (hv.env.withPath key) h) (fun a b hab => hab)
    · exact yields_ok h

theorem storedAt_same {v v' : MapVars E} (hv : VarsSame v v') {o o' old old' : Option (Node E)} (ho : Both Same o o') (hold : Both Same old old') :
    Both Same (storedAt v o old) (storedAt v' o' old') := by
  unfold storedAt
  rw [hv.flags]
  rcases both_some ho with ⟨rfl, rfl⟩ | ⟨x, y, rfl, rfl, q3⟩
  · exact hold
  · simp only [q3.ann]
    split
    · exact hold
    · split
      · exact q3.addFlags _
      · exact q3

theorem mapEntries_same (L : Lang E) {rec rec' : FlowFn E} (hrec : RecSame rec rec') {v v' : MapVars E} (hv : VarsSame v v') (mk : String) (so : Bool)
    {m m' acc acc' : List (String × Node E)} (hm : MSame m m') (ha : MSame acc acc') :
    Delivers MSame (mapEntries L rec v mk so m acc) (mapEntries L rec' v' mk so m' acc') := by
  intro r hr
  obtain ⟨h1, h2, h3⟩ := mapEntries_iff L rec v mk so hm.1 acc r hr
  have hall : ∀ k n n', mget m k = some n → mget m' k = some n' → ∃ o o', mapEntry L rec v mk so k n = .ok o ∧ mapEntry L rec' v' mk so k n' = .ok o' ∧ Both Same o o' := by
    intro k n n' hk hk'
    obtain ⟨o, q1, _⟩ := h1 k n hk
    have hs := hm.2.2 k
    rw [hk, hk'] at hs
    obtain ⟨o', q2, q3⟩ := mapEntry_same L hrec hv mk so k hs o q1
    exact ⟨o, o', q1, q2, q3⟩
  obtain ⟨r', hr'⟩ := mapEntries_ok L rec' v' mk so (m := m') acc' (fun e he => by
    have hg := mget_of_mem hm.2.1 (k := e.1) (v := e.2) he
    rcases both_some (hm.2.2 e.1) with ⟨_, q2⟩ | ⟨x, y, q1, q2, _⟩
    · rw [q2] at hg; cases hg
    · rw [q2] at hg
      cases hg
      obtain ⟨_, o', _, q, _⟩ := hall _ _ _ q1 q2
      exact ⟨o', q⟩)
  obtain ⟨i1, i2, i3⟩ := mapEntries_iff L rec' v' mk so hm.2.1 acc' r' hr'
  refine ⟨r', hr', h3 ha.1, i3 ha.2.1, fun k => ?_⟩
  rcases both_some (hm.2.2 k) with ⟨q1, q2⟩ | ⟨x, y, q1, q2, q3⟩
  · rw [h2 k q1, i2 k q2]; exact ha.2.2 k
  · obtain ⟨o, p1, p2⟩ := h1 k x q1
    obtain ⟨o', p1', p2'⟩ := i1 k y q2
    obtain ⟨w, w', e1, e2, e3⟩ := hall k x y q1 q2
    rw [p1] at e1; cases e1
    rw [p1'] at e2; cases e2
    rw [p2, p2']
    exact storedAt_same hv e3 (ha.2.2 k)

theorem injectFields_ok {sm m : List (String × Node E)} (h : MapOK m) : MapOK (injectFields sm m) := by
  unfold injectFields
  induction sm generalizing m with
  | nil => exact h
  | cons e r ih =>
    simp only [List.foldl_cons]
    split
    · exact ih (MapOK_mset h _ _)
    · exact ih h

theorem injectFields_same {sm sm' m m' : List (String × Node E)} (hs : MSame sm sm') (hm : MSame m m') : MSame (injectFields sm m) (injectFields sm' m') := by
  refine ⟨injectFields_ok hm.1, injectFields_ok hm.2.1, fun k => ?_⟩
  rw [mget_injectFields hs.1, mget_injectFields hs.2.1]
  rcases both_some (hm.2.2 k) with ⟨q1, q2⟩ | ⟨x, y, q1, q2, q3⟩
  · rw [q1, q2]
    simp only
    rcases both_some (hs.2.2 k) with ⟨q1, q2⟩ | ⟨x, y, q1, q2, q3⟩
    · rw [q1, q2]; trivial
    · rw [q1, q2]
      simp only [q3.flags]
      split
      · exact q3.addFlags _
      · trivial
  · rw [q1, q2]; exact q3

theorem injectStub_same {s s' : Option (Node E)} (hs : Both Same s s') (fl : Flags) {m m' : List (String × Node E)} (hm : MSame m m') :
    MSame (injectStub s fl m) (injectStub s' fl m') := by
  unfold injectStub
  rcases both_some hs with ⟨rfl, rfl⟩ | ⟨x, y, rfl, rfl, q3⟩
  · exact hm
  · simp only
    split
    · rcases vsame_cases q3.val with ⟨e, hl⟩ | ⟨l, l', e, e', h1⟩ | ⟨m, m', e, e', h1⟩ | ⟨x, x', e, e', h1⟩
      · rw [← e]
        revert hl
        cases hv : x.val <;> intro hl <;> first | exact hm | exact absurd hl (by simp [isLeaf])
      · rw [e, e']; exact hm
      · rw [e, e']; exact injectFields_same h1 hm
      · rw [e, e']; exact hm
    · exact hm

theorem mergeKey_same {m m' : List (String × Node E)} (h : MSame m m') :
    (mergeKey m = none ∧ mergeKey m' = none) ∨ ∃ k v v', mergeKey m = some (k, v) ∧ mergeKey m' = some (k, v') ∧ Both Same v v' := by
  unfold mergeKey
  rcases both_some (h.2.2 "<<") with ⟨q1, q2⟩ | ⟨x, y, q1, q2, q3⟩
  · rw [q1, q2]; exact .inr ⟨_, _, _, rfl, rfl, h.2.2 _⟩
  · rw [q1, q2]
    simp only [h.isSome MERGEKEY]
    split
    · exact .inl ⟨rfl, rfl⟩
    · exact .inr ⟨_, _, _, rfl, rfl, q3⟩

theorem mapVars_same (L : Lang E) {rec rec' : FlowFn E} (hrec : RecSame rec rec') {root root' : Node E} (hr : Same root root')
    {mv mv' : Option (Node E)} (hmv : Both Same mv mv') {v v' : MapVars E} (hv : VarsSame v v') :
    Delivers (fun x y => (x = none ∧ y = none) ∨ ∃ w w', x = some w ∧ y = some w' ∧ VarsSame w w') (mapVars L rec root mv v) (mapVars L rec' root' mv' v') := by
  unfold mapVars
  rcases both_some hmv with ⟨rfl, rfl⟩ | ⟨x, y, rfl, rfl, q3⟩
  · exact yields_ok (.inr ⟨_, _, rfl, rfl, hv⟩)
  · refine yields_map (hrec _ _ _ _ _ _ hv.env q3) (fun a b hab => ?_)
    rw [← hab.ann]
    split
    · exact .inl ⟨rfl, rfl⟩
    · have hw := mergeVars_same L hr q3 hab hv
      refine .inr ⟨_, _, rfl, rfl, ?_⟩
      by_cases ht : (mergeVars L root x a v).template = true
      · rw [if_pos ht, if_pos (hw.template ▸ ht)]
        exact ⟨hw.1, hw.2, hw.3, rfl, hw.5, hw.6, hw.7, hw.8, hw.9, hw.10, hw.11, hw.12⟩
      · rw [if_neg ht, if_neg (hw.template ▸ ht)]
        exact hw

theorem mapNode_same {root root' : Node E} (hr : Same root root') {s s' : Option (Node E)} (hs : Both Same s s') {v v' : MapVars E} (hv : VarsSame v v')
    {m m' : List (String × Node E)} (hm : MSame m m') : Same (mapNode root s v m) (mapNode root' s' v' m') := by
  unfold mapNode
  rw [← hv.merged, ← hv.flags, ← hv.template, ← hv.replace, ← hv.redirect, ← hv.err, ← hv.tag, ← hr.src, ← hr.ann]
  have h1 : MSame (if v.merged then m else injectStub s v.flags m) (if v.merged then m' else injectStub s' v.flags m') := by
    split
    · exact hm
    · exact injectStub_same hs _ hm
  generalize (if v.merged then m else injectStub s v.flags m) = x at h1 ⊢
  generalize (if v.merged then m' else injectStub s' v.flags m') = y at h1 ⊢
  have h2 : VSame (if v.template then .templ (Node.new (.map x) root.src) else .map x) (if v.template then .templ (Node.new (.map y) root.src) else .map y) := by
    split
    · exact same_new (show VSame (.map x) (.map y) from h1) _
    · exact h1
  simp only
  generalize (if v.template then Val.templ (Node.new (.map x) root.src) else .map x) = x at h2 ⊢
  generalize (if v.template then Val.templ (Node.new (.map y) root.src) else .map y) = y at h2 ⊢
  have h3 : Same (if v.replace then Node.replaceNode x root v.redirect else Node.redirectNode x root v.redirect)
      (if v.replace then Node.replaceNode y root' v.redirect else Node.redirectNode y root' v.redirect) := by
    split
    · exact hr.replaceNode h2 _
    · exact hr.redirectNode h2 _
  refine updateNode_same ?_ _ _
  cases v.err with
  | some e => exact h3.issueNode ..
  | none =>
    simp only
    split
    · exact h3.issueNode ..
    · exact h3

theorem flowMap_same (L : Lang E) {rec rec' : FlowFn E} (hrec : RecSame rec rec') {root root' : Node E} (hr : Same root root')
    {m m' : List (String × Node E)} (hm : MSame m m') {env env' : Env E} (he : SameEnv env env') (so t : Bool) :
    Delivers Same (flowMap L rec root m env so t) (flowMap L rec' root' m' env' so t) := by
  unfold flowMap
  rcases mergeKey_same hm with ⟨q1, q2⟩ | ⟨k, v, v', q1, q2, q3⟩
  · rw [q1, q2]; exact yields_ok (hr.issueNode ..)
  · rw [q1, q2]
    simp only
    obtain ⟨i1, i2⟩ := inheritedFlags_same he
    rw [← i1]
    refine yields_bind (mapVars_same L hrec hr q3 ?_) ?_
    · unfold mapVars0
      rw [← hr.ann]
      exact ⟨he.withScope hm, rfl, rfl, rfl, rfl, rfl, rfl, rfl, rfl, msame_nil, trivial, rfl⟩
    · rintro a b (⟨rfl, rfl⟩ | ⟨w, w', rfl, rfl, hw⟩)
      · exact yields_ok hr.undefinedNode
      · refine yields_map (H := MSame) ?_ (fun a b hab => mapNode_same hr i2 hw hab)
        unfold mapNew
        rw [← hw.addEntries]
        split
        · exact mapEntries_same L hrec hw k so hm hw.newMap
        · exact yields_ok hw.newMap

/-! ### lists -/

theorem keyTag_text {k name : String} {no : Bool} (h : keyTag k = some (name, no)) :
    k.toList = "key:".toList ++ (if no then '!' :: name.toList else name.toList) ∧ (no = false → name.toList.head? ≠ some '!') := by
  unfold keyTag at h
  cases hs : splitColon k.toList with
  | none => rw [hs] at h; cases h
  | some p =>
    obtain ⟨p, s⟩ := p
    rw [hs] at h
    simp only at h
    have := ((splitColon_some k.toList p s).1 hs).2.2
    split at h
    · next hp =>
      subst hp
      rw [this]
      split at h
      · simp only [Option.some.injEq, Prod.mk.injEq] at h
        obtain ⟨rfl, rfl⟩ := h
        simp
      · next hne =>
        simp only [Option.some.injEq, Prod.mk.injEq] at h
        obtain ⟨rfl, rfl⟩ := h
        simp only [Bool.false_eq_true, if_false, String.toList_ofList, forall_const]
        refine ⟨rfl, ?_⟩
        cases s with
        | nil => simp
        | cons c r => intro hc; simp only [List.head?_cons, Option.some.injEq] at hc; subst hc; exact hne r rfl
    · cases h

/-- the list key selected by the tags -/
def listTagKey (st : Option (String × Bool)) : Option String := st.map (fun x => if x.2 then NO_LIST_KEY else x.1)

theorem tagStep_none (st : Option (String × Bool)) {k : String} (h : keyTag k = none) : keyTagStep st k = st := by
  simp [keyTagStep, h]

theorem tagFold_no (l : List String) (k : String) : ∃ k', l.foldl keyTagStep (some (k, true)) = some (k', true) := by
  induction l generalizing k with
  | nil => exact ⟨k, rfl⟩
  | cons a r ih =>
    rw [List.foldl_cons]
    have : ∃ k', keyTagStep (some (k, true)) a = some (k', true) := by
      unfold keyTagStep
      cases keyTag a with
      | none => exact ⟨k, rfl⟩
      | some p =>
        obtain ⟨n, no⟩ := p
        simp only
        generalize (if no = true then "!" ++ n else n) = x
        split
        · exact ⟨_, rfl⟩
        · exact ⟨_, rfl⟩
    obtain ⟨k', hk'⟩ := this
    rw [hk']
    exact ih k'

theorem tagFold_nokey (l : List String) (b : Bool) : l.foldl keyTagStep (some (NO_LIST_KEY, b)) = some (NO_LIST_KEY, b) := by
  induction l with
  | nil => rfl
  | cons a r ih =>
    rw [List.foldl_cons]
    have : keyTagStep (some (NO_LIST_KEY, b)) a = some (NO_LIST_KEY, b) := by
      unfold keyTagStep
      cases keyTag a with
      | none => rfl
      | some p =>
        obtain ⟨n, no⟩ := p
        simp only [ite_self]
    rw [this, ih]

theorem tagFold_filter (l : List String) (st : Option (String × Bool)) : l.foldl keyTagStep st = (l.filter (fun k => (keyTag k).isSome)).foldl keyTagStep st := by
  induction l generalizing st with
  | nil => rfl
  | cons a r ih =>
    rw [List.foldl_cons, List.filter_cons]
    cases h : keyTag a with
    | none => rw [tagStep_none st h]; simpa using ih st
    | some p => simpa using ih _

/-- the list key for the tagged names -/
def tagKeyOf : List String → Option String
  | [] => none
  | [k] => listTagKey (keyTag k)
  | _ => some NO_LIST_KEY

theorem tagKey_fold (l : List String) (hl : l.Nodup) : listTagKey (l.foldl keyTagStep none) = tagKeyOf (l.filter (fun k => (keyTag k).isSome)) := by
  rw [tagFold_filter]
  have hd : (l.filter (fun k => (keyTag k).isSome)).Nodup := hl.sublist List.filter_sublist
  have ht : ∀ k ∈ l.filter (fun k => (keyTag k).isSome), (keyTag k).isSome := fun k hk => (List.mem_filter.1 hk).2
  generalize l.filter (fun k => (keyTag k).isSome) = t at hd ht
  match t, hd, ht with
  | [], _, _ => rfl
  | [k], _, ht =>
    obtain ⟨p, hp⟩ := Option.isSome_iff_exists.1 (ht k (by simp))
    simp [keyTagStep, hp, tagKeyOf]
  | k :: k' :: r, hd, ht =>
    obtain ⟨⟨n, no⟩, hp⟩ := Option.isSome_iff_exists.1 (ht k (by simp))
    obtain ⟨⟨n', no'⟩, hp'⟩ := Option.isSome_iff_exists.1 (ht k' (by simp))
    rw [List.foldl_cons]
    have h1 : keyTagStep none k = some (n, no) := by simp [keyTagStep, hp]
    rw [h1]
    cases no with
    | true =>
      obtain ⟨x, hx⟩ := tagFold_no (k' :: r) n
      rw [hx]; rfl
    | false =>
      rw [List.foldl_cons]
      have h2 : keyTagStep (some (n, false)) k' = some (NO_LIST_KEY, false) := by
        simp only [keyTagStep, hp']
        rw [if_pos]
        intro he
        simp only [List.nodup_cons, List.mem_cons, not_or] at hd
        apply hd.1.1
        rw [← String.toList_inj, (keyTag_text hp).1, (keyTag_text hp').1, ← he]
        cases no' <;> simp [String.toList_append]
      rw [h2, tagFold_nokey]; rfl

theorem tagKeyOf_perm {l l' : List String} (h : l.Perm l') : tagKeyOf l = tagKeyOf l' := by
  match l, l', h with
  | [], [], _ => rfl
  | [], _ :: _, h => have := h.length_eq; simp at this
  | [k], [], h => have := h.length_eq; simp at this
  | [k], [k'], h => have := h.mem_iff (a := k); simp only [List.mem_singleton, true_iff] at this; rw [this]
  | [k], _ :: _ :: _, h => have := h.length_eq; simp at this
  | _ :: _ :: _, [], h => have := h.length_eq; simp at this
  | _ :: _ :: _, [_], h => have := h.length_eq; simp at this
  | _ :: _ :: _, _ :: _ :: _, _ => rfl

theorem foldl_mset_map (f : String → String) (m acc : List (String × Node E)) (hn : (mkeys acc ++ (mkeys m).map f).Nodup) :
    m.foldl (fun acc e => mset acc (f e.1) e.2) acc = acc ++ m.map (fun e => (f e.1, e.2)) := by
  induction m generalizing acc with
  | nil => simp
  | cons e r ih =>
    rw [List.foldl_cons]
    have hk : mget acc (f e.1) = none := by
      rw [mget_none_iff]
      intro h
      rw [List.nodup_append] at hn
      exact hn.2.2 _ h (f e.1) (by simp [mkeys]) rfl
    rw [mset_of_none hk, ih]
    · simp
    · simpa [mkeys] using hn

theorem renamed_same (f : String → String) {m m' : List (String × Node E)} (h : MSame m m') (hn : ((mkeys m).map f).Nodup) :
    MSame (m.foldl (fun acc e => mset acc (f e.1) e.2) []) (m'.foldl (fun acc e => mset acc (f e.1) e.2) []) := by
  have hn' : ((mkeys m').map f).Nodup := (h.keys.map f).nodup_iff.1 hn
  rw [foldl_mset_map f m [] (by simpa [mkeys] using hn), foldl_mset_map f m' [] (by simpa [mkeys] using hn')]
  simp only [List.nil_append]
  have ok : ∀ m : List (String × Node E), ((mkeys m).map f).Nodup → MapOK (m.map (fun e => (f e.1, e.2))) := by
    intro m hm
    simpa [MapOK, mkeys, Function.comp_def] using hm
  have get : ∀ (m m' : List (String × Node E)), MapOK m → MapOK m' → ((mkeys m').map f).Nodup → ∀ k a, mget (m.map (fun e => (f e.1, e.2))) k = some a →
      ∃ e, mget m e = some a ∧ f e = k ∧ ∀ b, mget m' e = some b → mget (m'.map (fun e => (f e.1, e.2))) k = some b := by
    intro m m' hm hm' hn' k a ha
    obtain ⟨⟨e, x⟩, he, hx⟩ := List.mem_map.1 (mget_some_mem ha)
    simp only [Prod.mk.injEq] at hx
    obtain ⟨rfl, rfl⟩ := hx
    exact ⟨e, mget_of_mem hm he, rfl, fun b hb => mget_of_mem (ok m' hn') (List.mem_map.2 ⟨(e, b), mget_some_mem hb, rfl⟩)⟩
  refine ⟨ok m hn, ok m' hn', fun k => ?_⟩
  cases ha : mget (m.map (fun e => (f e.1, e.2))) k with
  | some a =>
    obtain ⟨e, q1, _, q3⟩ := get m m' h.1 h.2.1 hn' k a ha
    have := h.2.2 e
    rw [q1] at this
    cases hb : mget m' e with
    | none => rw [hb] at this; exact this.elim
    | some b => rw [hb] at this; rw [q3 b hb]; exact this
  | none =>
    cases hb : mget (m'.map (fun e => (f e.1, e.2))) k with
    | none => trivial
    | some b =>
      obtain ⟨e, q1, _, q3⟩ := get m' m h.2.1 h.1 hn k b hb
      have := h.2.2 e
      rw [q1] at this
      cases hb : mget m e with
      | none => rw [hb] at this; exact this.elim
      | some b => rw [q3 b hb] at ha; cases ha

theorem ambiguous_same {n n' : Node E} (h : Same n n') : ambiguous n = ambiguous n' := by
  unfold ambiguous
  have hv := h.val
  rcases vsame_cases hv with ⟨e, hl⟩ | ⟨l, l', e, e', h1⟩ | ⟨m, m', e, e', h1⟩ | ⟨x, x', e, e', h1⟩
  · rw [e]
  · rw [e, e']
  · rw [e, e']
    simp only
    congr 1
    exact decide_eq_decide.2 (h1.keys.map untag).nodup_iff
  · rw [e, e']

theorem processKeyTag_same {n n' : Node E} (h : Same n n') (ha : ambiguous n = false) :
    Same (processKeyTag n).1 (processKeyTag n').1 ∧ (processKeyTag n).2 = (processKeyTag n').2 := by
  unfold processKeyTag
  rcases vsame_cases h.val with ⟨e, hl⟩ | ⟨l, l', e, e', h1⟩ | ⟨m, m', e, e', h1⟩ | ⟨x, x', e, e', h1⟩
  · rw [← e]
    revert hl
    cases hv : n.val <;> intro hl <;> first | exact ⟨h, rfl⟩ | exact absurd hl (by simp [isLeaf])
  · rw [e, e']; exact ⟨h, rfl⟩
  · rw [e, e']
    simp only
    have hk : listTagKey ((mkeys m).foldl keyTagStep none) = listTagKey ((mkeys m').foldl keyTagStep none) := by
      rw [tagKey_fold _ h1.1, tagKey_fold _ h1.2.1]
      exact tagKeyOf_perm (h1.keys.filter _)
    unfold ambiguous at ha
    rw [e] at ha
    simp only [Bool.not_eq_false', decide_eq_true_eq] at ha
    cases hf : (mkeys m).foldl keyTagStep none with
    | none =>
      cases hf' : (mkeys m').foldl keyTagStep none with
      | none => exact ⟨h, rfl⟩
      | some p => rw [hf, hf'] at hk; cases hk
    | some p =>
      cases hf' : (mkeys m').foldl keyTagStep none with
      | none => rw [hf, hf'] at hk; cases hk
      | some p' =>
        rw [hf, hf'] at hk
        simp only [listTagKey, Option.map_some, Option.some.injEq] at hk
        obtain ⟨k, no⟩ := p
        obtain ⟨k', no'⟩ := p'
        exact ⟨h.withVal (renamed_same untag h1 ha), hk⟩
  · rw [e, e']; exact ⟨h, rfl⟩

end Spiff
