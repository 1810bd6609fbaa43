import Verif.Props.JsonParse
/-
C87: a document written as JSON is read as the same document.
-/
namespace Spiff
open Spec
variable {E : Type}

/-! ### texts -/

theorem printItems_join : ∀ (t : JTree) (r : List JTree), commaJoin ((t :: r).map JTree.print) = t.print ++ printItems false r := by
  intro t r
  induction r generalizing t with
  | nil => simp [commaJoin, printItems]
  | cons u r ih =>
    have := ih u
    simp only [List.map_cons] at this ⊢
    rw [commaJoin, this]
    · simp [printItems]
    · simp

theorem items_text (l : List JTree) : commaJoin (l.map JTree.print) = printItems true l := by
  cases l with
  | nil => rfl
  | cons t r => rw [printItems_join]; simp [printItems]

/-- the text of a field -/
def fieldText (e : YText × JTree) : YText := jsonQuote e.1 ++ ':' :: e.2.print

theorem printFields_join : ∀ (t : YText × JTree) (r : List (YText × JTree)), commaJoin ((t :: r).map fieldText) = fieldText t ++ printFields false r := by
  intro t r
  induction r generalizing t with
  | nil => simp [commaJoin, printFields]
  | cons u r ih =>
    have := ih u
    obtain ⟨k, u⟩ := u
    simp only [List.map_cons] at this ⊢
    rw [commaJoin, this]
    · simp [printFields, fieldText]
    · simp

theorem fields_text (l : List (YText × JTree)) : commaJoin (l.map fieldText) = printFields true l := by
  cases l with
  | nil => rfl
  | cons t r => rw [printFields_join]; obtain ⟨k, t⟩ := t; simp [printFields, fieldText]

theorem number_word {s : YText} (h : NumberShape s) : Word s := by
  refine ⟨numberShape_plain _ h, ?_, ?_⟩
  · obtain ⟨sg, d, r, rfl, _⟩ := h; simp
  · obtain ⟨sg, d, r, rfl, hsg, hd, hr⟩ := h
    have hall : ∀ c ∈ "0123456789+-.e".toList, c ≠ ' ' ∧ c ≠ '#' ∧ flowEnds c = false := by decide
    intro c hc
    rcases List.mem_append.1 hc with hc | hc
    · rcases hsg with rfl | rfl
      · cases hc
      · simp only [List.mem_singleton] at hc; subst hc; decide
    · rcases List.mem_cons.1 hc with rfl | hc
      · exact hall _ (decimal_mem _ hd).1
      · exact hall _ (hr c hc)

/-! ### values -/

/-- what is required of each value of a document -/
structure JsonGoodAt (X : YLib) (J : Nat → YText) (x : Node E) : Prop where
  data : (∀ e, x.val ≠ .expr e) ∧ (∀ t, x.val ≠ .templ t) ∧ ∀ s, x.val ≠ .lambda s
  ints : ∀ i : Int, x.val = .int i → -(2^63) ≤ i ∧ i < 2^63
  floats : ∀ b, x.val = .float b → isNaN b = false ∧ b ≠ 0x7FF0000000000000 ∧ b ≠ 0xFFF0000000000000 ∧ FloatWritten X J b
  texts : ∀ s : String, x.val = .str s → ∀ c ∈ s.toList, JsonSafeC c
  keys : ∀ m, x.val = .map m → ∀ e ∈ m, (∀ c ∈ e.1.toList, JsonSafeC c) ∧ (jsonQuote e.1.toList).length ≤ 1024

/-- the whole document -/
def JsonGood (X : YLib) (J : Nat → YText) (n : Node E) : Prop := ∀ p x, locate n p = some x → JsonGoodAt X J x

theorem JsonWritable.good {X : YLib} {J : Nat → YText} {n : Node E} (h : JsonWritable X J n) : JsonGood X J n :=
  fun p x hx => ⟨h.data p x hx, h.ints p x hx, h.floats p x hx, h.texts p x hx, h.keys p x hx⟩

/-- a value written as JSON, and what is read for it -/
def JsonOK (X : YLib) (J : Nat → YText) (src : String) (n : Node E) : Prop :=
  ∃ (t : JTree) (d : Data) (n' : Node E), toJson J n = some t.print ∧ t.ok ∧ t.tree.noAnchors ∧
    (∀ env, t.tree.data X env = .ok (d, env)) ∧ sanitize src d = some n' ∧ SameContent n n' ∧ n'.src = src ∧ n'.ann = {} ∧
    (∀ a s, t.tree = .scalar a s → QuotedNull s → ∃ w : String, n.val = .str w ∧ w.toList ∈ nullWords.map String.toList)

theorem json_word (X : YLib) (J : Nat → YText) (src : String) (v : Val E) (s : String) (an : Ann) (t : YText) (d : Data) (v' : Val E)
    (he : toJson J (.mk v s an) = some t) (hw : Word t) (hm : PlainMeans X t d) (hs : sanitize src d = some (Node.new v' src))
    (hc : ∀ s' a', SameContent (.mk v s an) (.mk v' s' a')) : JsonOK X J src (.mk v s an) := by
  refine ⟨.word t, d, Node.new v' src, he, hw, rfl, ?_, hs, hc _ _, rfl, rfl, ?_⟩
  · intro env
    rw [JTree.tree, scalar_data, (plain_scalar X t d).2 hm]
  · intro a s h hq
    rw [JTree.tree] at h
    cases h
    exact absurd hq.2.1 (by simp)

theorem json_list (X : YLib) (J : Nat → YText) (src : String) (l : List (Node E)) (h : ∀ n ∈ l, JsonOK X J src n) :
    ∃ (d0 : List Data) (ts : List JTree) (ds : List Data) (ns : List (Node E)), normalizeL l = some d0 ∧ jsonItems J d0 = some (ts.map JTree.print) ∧
      itemsOk ts ∧ noAnchorsL (itemTrees ts) ∧ (∀ env, dataL X (itemTrees ts) env = .ok (ds, env)) ∧ sanitizeL src ds = some ns ∧
      List.Forall₂ SameContent l ns := by
  induction l with
  | nil => exact ⟨[], [], [], [], rfl, rfl, trivial, trivial, fun env => rfl, rfl, .nil⟩
  | cons n r ih =>
    obtain ⟨t, d, n', h1, h2, h3, h4, h5, h6, -⟩ := h n (by simp)
    obtain ⟨d0, ts, ds, ns, i1, i2, i3, i4, i5, i6, i7⟩ := ih (fun x hx => h x (by simp [hx]))
    obtain ⟨d1, g1, g2⟩ := Option.bind_eq_some_iff.1 h1
    refine ⟨d1 :: d0, t :: ts, d :: ds, n' :: ns, ?_, ?_, ⟨h2, i3⟩, ⟨h3, i4⟩, ?_, ?_, .cons h6 i7⟩
    · simp only [normalizeL, g1, i1, consOpt]
    · simp only [jsonItems, g2, i2, List.map_cons]
    · intro env
      simp only [itemTrees, dataL, h4, i5, YRes.bind]
    · simp only [sanitizeL, h5, i6, consOpt]

theorem json_members (J : Nat → YText) (m : List (String × Node E)) (h : ∀ e ∈ m, ∃ t, toJson J e.2 = some t) :
    ∃ dm em, normalizeM m = some dm ∧ jsonMembers J dm = some em ∧ mkeys em = mkeys m ∧ ∀ k, mget em k = (mget m k).bind (toJson J) := by
  induction m with
  | nil => exact ⟨[], [], rfl, rfl, rfl, fun k => rfl⟩
  | cons e r ih =>
    obtain ⟨k, n⟩ := e
    obtain ⟨t, ht⟩ := h (k, n) (by simp)
    obtain ⟨dm, em, h1, h2, h3, h4⟩ := ih (fun e he => h e (by simp [he]))
    obtain ⟨d1, g1, g2⟩ := Option.bind_eq_some_iff.1 ht
    simp only at g1 ht
    refine ⟨(k, d1) :: dm, (k, t) :: em, ?_, ?_, ?_, ?_⟩
    · simp only [normalizeM, g1, h1, Option.map_some, consOpt]
    · simp only [jsonMembers, g2, h2]
    · simp [mkeys] at h3 ⊢; exact h3
    · intro q
      simp only [mget]
      split
      · simp [ht]
      · exact h4 q

theorem json_entries (X : YLib) (J : Nat → YText) (src : String) (m : List (String × Node E)) (em : List (String × YText))
    (hem : ∀ k, mget em k = (mget m k).bind (toJson J)) (ks : List String) (hn : ks.Nodup)
    (hk : ∀ k ∈ ks, (∀ c ∈ k.toList, JsonSafeC c) ∧ (jsonQuote k.toList).length ≤ 1024)
    (h : ∀ k ∈ ks, ∃ n, mget m k = some n ∧ JsonOK X J src n) :
    ∃ (ts : List (YText × JTree)) (ds : List (Key × Data)) (ns : List (String × Node E)),
      ks.map (fun k => jsonQuote k.toList ++ ':' :: (mget em k).getD []) = ts.map fieldText ∧
      fieldsOk ts ∧ noAnchorsM (fieldTrees ts) ∧ (∀ acc env, (∀ e ∈ acc, ∀ k ∈ ks, e.1 ≠ Key.str k) → dataM X (fieldTrees ts) acc env = .ok (acc ++ ds, env)) ∧
      sanitizeD src ds = some ns ∧ mkeys ns = ks ∧ ∀ k ∈ ks, ∃ x y, mget m k = some x ∧ mget ns k = some y ∧ SameContent x y := by
  induction ks with
  | nil => exact ⟨[], [], [], rfl, trivial, trivial, fun acc env _ => by simp [fieldTrees, dataM], rfl, rfl, by simp⟩
  | cons k r ih =>
    obtain ⟨hk1, hr⟩ := List.nodup_cons.1 hn
    obtain ⟨n, hg, t, d, n', h1, h2, h3, h4, h5, h6, -⟩ := h k (by simp)
    obtain ⟨ts, ds, ns, i1, i0, i2, i3, i4, i5, i6⟩ := ih hr (fun x hx => hk x (by simp [hx])) (fun x hx => h x (by simp [hx]))
    have hke : mget em k = some t.print := by rw [hem, hg]; exact h1
    obtain ⟨kc, kl⟩ := hk k (by simp)
    refine ⟨(k.toList, t) :: ts, (Key.str k, d) :: ds, (k, n') :: ns, ?_, ⟨kc, kl, h2, i0⟩, ⟨rfl, h3, i2⟩, ?_, ?_, ?_, ?_⟩
    · rw [List.map_cons, i1, hke]
      simp [fieldText]
    · intro acc env hacc
      have hy : yKey (.str k) = some (.str k) := rfl
      simp only [fieldTrees, dataM, scalar_data, quoted_scalar, String.ofList_toList, h4, YRes.bind, assignKey, hy]
      rw [kset_fresh acc _ _ (fun e he => hacc e he k (by simp))]
      rw [i3]
      · simp
      · intro e he k' hk'
        rcases List.mem_append.1 he with he | he
        · exact hacc e he k' (by simp [hk'])
        · simp only [List.mem_singleton] at he
          subst he
          intro hh
          injection hh with hh
          subst hh
          exact hk1 hk'
    · simp only [sanitizeD, h5, i4, consOpt, Option.map_some]
    · simp only [mkeys, List.map_cons] at i5 ⊢; rw [i5]
    · intro q hq
      by_cases hqk : q = k
      · subst hqk
        exact ⟨n, n', hg, by simp [mget], h6⟩
      · rcases List.mem_cons.1 hq with rfl | hq
        · exact absurd rfl hqk
        obtain ⟨x, y, j1, j2, j3⟩ := i6 q hq
        refine ⟨x, y, j1, ?_, j3⟩
        simp only [mget]
        rw [if_neg (fun h => hqk h.symm)]
        exact j2

/-- every admissible document is written in a readable form -/
theorem json_ok (X : YLib) (J : Nat → YText) (src : String) (n : Node E) : GoMaps n → JsonGood X J n → JsonOK X J src n := by
  have wordP : ∀ w ∈ ["null", "true", "false"], Word w.toList := by
    intro w hw
    refine ⟨plainText_word w (by simp only [List.mem_cons, List.not_mem_nil, or_false] at hw ⊢; tauto), ?_, ?_⟩
    · simp only [List.mem_cons, List.not_mem_nil, or_false] at hw
      rcases hw with rfl | rfl | rfl <;> decide
    · simp only [List.mem_cons, List.not_mem_nil, or_false] at hw
      rcases hw with rfl | rfl | rfl <;> decide
  refine Node.rec
    (motive_1 := fun v => ∀ s an, GoMapsV v → JsonGood X J (.mk v s an) → JsonOK X J src (.mk v s an))
    (motive_2 := fun n => GoMaps n → JsonGood X J n → JsonOK X J src n)
    (motive_3 := fun l => ∀ n ∈ l, GoMaps n → JsonGood X J n → JsonOK X J src n)
    (motive_4 := fun m => ∀ e ∈ m, GoMaps e.2 → JsonGood X J e.2 → JsonOK X J src e.2)
    (motive_5 := fun e => GoMaps e.2 → JsonGood X J e.2 → JsonOK X J src e.2)
    ?_ ?_ ?_ ?_ ?_ ?_ ?_ ?_ ?_ ?_ ?_ ?_ ?_ ?_ ?_ ?_ n
  case refine_1 =>
    intro s an _ _
    exact json_word X J src _ s an "null".toList .nil _ rfl (wordP _ (by simp)) (.null (.inr (by decide))) rfl
      (fun _ _ => sameContent_leaf trivial (fun i => by cases i <;> rfl))
  case refine_2 =>
    intro b s an _ _
    cases b with
    | true =>
      exact json_word X J src _ s an "true".toList (.bool true) _ rfl (wordP _ (by simp))
        (.bool true (.yes "true" (by simp) (by unfold SameWord; decide))) rfl (fun _ _ => sameContent_leaf rfl (fun i => by cases i <;> rfl))
    | false =>
      exact json_word X J src _ s an "false".toList (.bool false) _ rfl (wordP _ (by simp))
        (.bool false (.no "false" (by simp) (by unfold SameWord; decide))) rfl (fun _ _ => sameContent_leaf rfl (fun i => by cases i <;> rfl))
  case refine_3 =>
    intro i s an _ hgood
    obtain ⟨h1, h2⟩ := (hgood [] _ rfl).ints i rfl
    exact json_word X J src _ s an (toString i).toList (.num .int64 i) _ rfl (number_word (int_shape i))
      (.int i (shape_numberLike _ (int_shape i)) (int_text i h1 h2)) rfl (fun _ _ => sameContent_leaf rfl (fun i => by cases i <;> rfl))
  case refine_4 =>
    intro b s an _ hgood
    obtain ⟨hb, hi, hi', hw⟩ := (hgood [] _ rfl).floats b rfl
    have hc : ∀ s' a', SameContent (.mk (.float b : Val E) s an) (.mk (.float b) s' a') := fun _ _ =>
      sameContent_leaf (by simp [SameKind, floatEq, hb]) (fun i => by cases i <;> rfl)
    refine json_word X J src _ s an (J b) (.float b) _ ?_ (number_word hw.shape)
      (.float _ (.inl (shape_numberLike _ hw.shape)) (fun _ => hw.noInt) hw.same) rfl hc
    have h1 : b ≠ infBits := hi
    have h2 : b ≠ floatNeg infBits := hi'
    simp [toJson, normalize, normalizeV, jsonText, jsonFloat, hb, h1, h2]
  case refine_5 =>
    intro w s an _ hgood
    refine ⟨.text w.toList, .str w, Node.new (.str w) src, rfl, (hgood [] _ rfl).texts w rfl, rfl, ?_, rfl,
      sameContent_leaf rfl (fun i => by cases i <;> rfl), rfl, rfl, ?_⟩
    · intro env
      rw [JTree.tree, scalar_data, quoted_scalar, String.ofList_toList]
    · intro a t ht hq
      rw [JTree.tree] at ht
      cases ht
      exact ⟨w, rfl, hq.2.2⟩
  case refine_6 =>
    intro l ih s an hg hgood
    simp only [GoMapsV, GoMapsL_iff] at hg
    have hi : ∀ x ∈ l, JsonOK X J src x := by
      intro x hxm
      obtain ⟨i, hx⟩ := List.mem_iff_getElem?.1 hxm
      refine ih x hxm (hg x hxm) (fun p y hy => hgood (.idx i :: p) y ?_)
      simpa [locate, child, hx] using hy
    obtain ⟨d0, ts, ds, ns, h1, h2, h3, h3', h4, h5, h6⟩ := json_list X J src l hi
    refine ⟨.seq ts, .seq ds, Node.new (.list ns) src, ?_, h3, ⟨rfl, h3'⟩, ?_, by simp [sanitize, h5], ?_, rfl, rfl, ?_⟩
    · simp [toJson, normalize, normalizeV, h1, jsonText, h2, JTree.print, items_text]
    · intro env
      simp only [JTree.tree, YTree.data, h4, YRes.bind, define_empty]
    · refine agree_step.2 ⟨trivial, fun i => ?_⟩
      cases i with
      | idx i =>
        simp only [Node.val_mk, Node.val_new, child]
        rcases hx : l[i]? with _ | x
        · have : ns[i]? = none := by
            rw [List.getElem?_eq_none_iff] at hx ⊢; rw [← h6.length_eq]; exact hx
          simp [this, Both]
        · have hil : i < l.length := (List.getElem?_eq_some_iff.1 hx).1
          have hit : i < ns.length := by rw [← h6.length_eq]; exact hil
          rw [List.getElem?_eq_getElem hit]
          have := (List.forall₂_iff_get.1 h6).2 i hil hit
          simp only [List.get_eq_getElem] at this
          rw [List.getElem?_eq_getElem hil] at hx
          cases hx
          exact this
      | _ => exact trivial
    · intro a s h; rw [JTree.tree] at h; cases h
  case refine_7 =>
    intro m ih s an hg hgood
    simp only [GoMapsV, GoMapsM_iff] at hg
    have hi : ∀ e ∈ m, JsonOK X J src e.2 := by
      intro x hxm
      have hxg := mget_of_mem hg.1 hxm
      refine ih x hxm (hg.2 x hxm) (fun p y hy => hgood (.key x.1 :: p) y ?_)
      simpa [locate, child, hxg] using hy
    obtain ⟨dm, em, hm0, hm1, hm2, hm3⟩ := json_members J m (fun e he => by obtain ⟨t, _, _, h, _⟩ := hi e he; exact ⟨_, h⟩)
    have hsk : sortedKeys em = sortedKeys m := by unfold sortedKeys; rw [hm2]
    have hperm : (sortedKeys m).Perm (mkeys m) := sortStr_perm _
    obtain ⟨ts, ds, ns, h1, h1', h2, h3, h4, h5, h6⟩ := json_entries X J src m em hm3 (sortedKeys m) (hperm.nodup_iff.2 hg.1) (by
      intro k hk
      obtain ⟨e, he, rfl⟩ := List.mem_map.1 (hperm.mem_iff.1 hk)
      exact (hgood [] _ rfl).keys m rfl e he) (by
      intro k hk
      have hk := hperm.mem_iff.1 hk
      obtain ⟨e, he, rfl⟩ := List.mem_map.1 hk
      exact ⟨e.2, mget_of_mem hg.1 he, hi e he⟩)
    refine ⟨.map ts, .dict ds, Node.new (.map ns) src, ?_, h1', ⟨rfl, h2⟩, ?_,
      by simp [sanitize, h4], ?_, rfl, rfl, ?_⟩
    · have : jsonFields em = ts.map fieldText := by rw [← h1, jsonFields, hsk]
      simp [toJson, normalize, normalizeV, hm0, jsonText, hm1, JTree.print, this, fields_text]
    · intro env
      simp only [JTree.tree, YTree.data, h3 [] env (by simp), YRes.bind, define_empty, List.nil_append]
    · refine agree_step.2 ⟨trivial, fun i => ?_⟩
      cases i with
      | key k =>
        simp only [Node.val_mk, Node.val_new, child]
        by_cases hk : k ∈ mkeys m
        · obtain ⟨x, y, j1, j2, j3⟩ := h6 k (hperm.mem_iff.2 hk)
          rw [j1, j2]
          exact j3
        · have hx : mget m k = none := mget_none_iff.2 hk
          have hy : mget ns k = none := mget_none_iff.2 (by rw [h5]; exact fun h => hk (hperm.mem_iff.1 h))
          rw [hx, hy]
          exact trivial
      | _ => exact trivial
    · intro a s h; rw [JTree.tree] at h; cases h
  case refine_8 => intro e s an _ ho; exact absurd rfl ((ho [] _ rfl).data.1 e)
  case refine_9 => intro n ih s an _ ho; exact absurd rfl ((ho [] _ rfl).data.2.1 n)
  case refine_10 => intro e s an _ ho; exact absurd rfl ((ho [] _ rfl).data.2.2 e)
  case refine_11 => intro v s an ih hg ho; exact ih s an (by simpa [GoMaps] using hg) ho
  case refine_12 => intro a h; cases h
  case refine_13 =>
    intro x r h1 h2 a h
    rcases List.mem_cons.1 h with rfl | h
    · exact h1
    · exact h2 a h
  case refine_14 => intro a h; cases h
  case refine_15 =>
    intro x r h1 h2 a h
    rcases List.mem_cons.1 h with rfl | h
    · exact h1
    · exact h2 a h
  case refine_16 => intro k n ih; exact ih

/-- all characters of a JSON text can be read, and it is not blank -/
theorem json_chars_readable (t : JTree) : t.ok → t.print.all isReadableC = true := by
  have word : ∀ w : YText, Word w → w.all isReadableC = true := by
    intro w hw
    rw [List.all_eq_true]
    intro c hc
    have h := hw.plain.printable c hc
    unfold AsciiC at h
    unfold isReadableC
    simp only [Bool.or_eq_true, Bool.and_eq_true, decide_eq_true_eq]
    omega
  have text : ∀ s : YText, (∀ c ∈ s, JsonSafeC c) → (jsonQuote s).all isReadableC = true := by
    intro s hs
    rw [List.all_eq_true]
    exact fun c hc => (json_string_chars hs c hc).1
  refine JTree.rec
    (motive_1 := fun t => t.ok → t.print.all isReadableC = true)
    (motive_2 := fun l => itemsOk l → ∀ b, (printItems b l).all isReadableC = true)
    (motive_3 := fun l => fieldsOk l → ∀ b, (printFields b l).all isReadableC = true)
    (motive_4 := fun e => e.2.ok → e.2.print.all isReadableC = true)
    ?_ ?_ ?_ ?_ ?_ ?_ ?_ ?_ ?_ t
  · intro w h; exact word w h
  · intro s h; exact text s h
  · intro l ih h
    simp only [JTree.print, List.all_cons, List.all_append, ih h true, List.all_nil]
    decide
  · intro l ih h
    simp only [JTree.print, List.all_cons, List.all_append, ih h true, List.all_nil]
    decide
  · intro _ b; rfl
  · intro t r h1 h2 h b
    rw [itemsOk] at h
    rw [printItems, List.all_append, List.all_append, h1 h.1, h2 h.2 false]
    cases b <;> decide
  · intro _ b; rfl
  · rintro ⟨k, t⟩ r h1 h2 h b
    rw [fieldsOk] at h
    rw [printFields, List.all_append, List.all_append, List.all_cons, List.all_append, h1 h.2.2.1, h2 h.2.2.2 false, text k h.1]
    cases b <;> decide
  · intro k t ih; exact ih

theorem json_visible (t : JTree) (h : t.ok) : ∃ c r, t.print = c :: r ∧ isTrimmedC c = false := by
  cases t with
  | word w =>
    have hw : Word w := h
    obtain ⟨c, r, hc, ha, hs, _⟩ := word_vis hw
    refine ⟨c, r, hc, ?_⟩
    unfold isTrimmedC
    have h1 : c ≠ '\t' := by rintro rfl; revert ha; unfold AsciiC; decide
    have h2 : c ≠ '\n' := by rintro rfl; revert ha; unfold AsciiC; decide
    have h3 : c ≠ '\r' := by rintro rfl; revert ha; unfold AsciiC; decide
    simp [hs, h1, h2, h3]
  | text s => exact ⟨_, _, rfl, by decide⟩
  | seq l => exact ⟨_, _, rfl, by decide⟩
  | map l => exact ⟨_, _, rfl, by decide⟩

/-- **C87**: a document of data, written as JSON (with or without a line break behind it), is read as the same document. -/
theorem json_read (X : YLib) (J : Nat → List Char) (src : String) (n : Node E) (h : JsonWritable X J n) :
    ∃ (t : List Char) (n' : Node E), toJson J n = some t ∧
      (∃ N, ∀ fuel, N ≤ fuel → parseDocuments X fuel src t = .ok [n'] ∧ parseDocuments X fuel src (printJson [some t]) = .ok [n']) ∧
      SameContent n n' ∧ n'.src = src ∧ n'.ann = {} := by
  obtain ⟨t, d, n', h1, h2, h3, h4, h5, h6, h7, h8, h9⟩ := json_ok X J src n h.maps (JsonWritable.good h)
  refine ⟨t.print, n', h1, ?_, h6, h7, h8⟩
  obtain ⟨N, hN⟩ := read_documents X [t.tree] (by simp) (by
    intro u hu
    simp only [List.mem_singleton] at hu
    subst hu
    refine ⟨(noAnchors_tame _ h3).1, fun a s hs hq => ?_⟩
    obtain ⟨w, hw, hm⟩ := h9 a s hs hq
    apply h.root w hw
    obtain ⟨w', hw', he⟩ := List.mem_map.1 hm
    rw [String.toList_inj] at he
    rw [← he]
    exact hw')
  have main : ∀ tail : YText, (tail = [] ∨ tail = ['\n']) → ∀ fuel, N ≤ fuel → parseDocuments X fuel src (t.print ++ tail) = .ok [n'] := by
    intro tail ht fuel hf
    obtain ⟨c, r, hc, hv⟩ := json_visible t h2
    have hnb : (t.print ++ tail).all isTrimmedC = false := by rw [hc]; simp [hv]
    have hread : readEvents (t.print ++ tail) = some (.streamStart :: docEvents [t.tree]) := by
      unfold readEvents
      rw [if_pos, json_tokens t h2 ht, Option.bind_some, json_parse]
      rw [List.all_append, json_chars_readable t h2]
      rcases ht with rfl | rfl <;> decide
    unfold parseDocuments
    rw [hnb, if_neg Bool.false_ne_true, hread]
    simp only [hN fuel hf, dataDocs, h4, YRes.bind, sanitizeL, h5, consOpt]
  refine ⟨N, fun fuel hf => ⟨?_, ?_⟩⟩
  · have := main [] (.inl rfl) fuel hf
    rwa [List.append_nil] at this
  · have := main ['\n'] (.inr rfl) fuel hf
    simpa [printJson] using this

end Spiff
