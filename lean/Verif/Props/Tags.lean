import Verif.Model.Tags
import Verif.Lemmas.Maps
import Verif.Lemmas.Index
import Verif.Props.MapFns
/-
C19, C20, C21: tags and document history.
-/
namespace Spiff
variable {E : Type}

/-! document names -/

theorem toString_int (i : Int) : (toString i).toList = if 0 ≤ i then Nat.toDigits 10 i.toNat else '-' :: Nat.toDigits 10 i.natAbs := by
  cases i with
  | ofNat n =>
    have : toString (Int.ofNat n) = toString n := rfl
    rw [this]
    simp [toString, Nat.repr, Nat.toDigits]
  | negSucc n =>
    have : toString (Int.negSucc n) = "-" ++ toString (n + 1) := rfl
    rw [this]
    have h : ¬ (0 : Int) ≤ Int.negSucc n := by omega
    rw [if_neg h]
    simp [toString, Nat.repr, String.toList_append]

theorem docName_toList (i : Int) : (docName i).toList = ['d', 'o', 'c', '.'] ++ (toString i).toList := by
  rw [docName, String.toList_append]; rfl

theorem digits_not_colon (n : Nat) : ∀ c ∈ Nat.toDigits 10 n, c ≠ ':' := by
  have := isDigits_toDigits n
  simp only [isDigits, Bool.and_eq_true, List.all_eq_true] at this
  intro c hc h
  have := this.2 c hc
  subst h
  revert this; decide

theorem dotted_docName (i : Int) : dotted (docName i) = docName i := by
  apply String.toList_injective
  rw [dotted, String.toList_ofList, docName_toList, toString_int]
  have hid : ∀ l : List Char, (∀ c ∈ l, c ≠ ':') → l.map (fun c => if c = ':' then '.' else c) = l := by
    intro l h
    induction l with
    | nil => rfl
    | cons a r ih => simp only [List.map_cons]; rw [if_neg (h a (by simp)), ih (fun c hc => h c (by simp [hc]))]
  apply hid
  intro c hc
  rw [List.mem_append] at hc
  rcases hc with hc | hc
  · simp at hc
    rcases hc with rfl | rfl | rfl | rfl <;> decide
  · split at hc
    · exact digits_not_colon _ c hc
    · rcases List.mem_cons.1 hc with rfl | hc
      · decide
      · exact digits_not_colon _ c hc

theorem dotted_idem (n : String) : dotted (dotted n) = dotted n := by
  apply String.toList_injective
  simp only [dotted, String.toList_ofList, List.map_map]
  congr 1
  funext c
  simp only [Function.comp]
  by_cases h : c = ':' <;> simp [h]

theorem docName_prefix (i : Int) : hasPrefix (docName i) "doc." = true := by
  rw [hasPrefix, docName_toList]
  rfl

theorem atoi_toString (i : Int) (h1 : -(2^63) ≤ i) (h2 : i < 2^63) : atoi (toString i).toList = some i := by
  rw [toString_int]
  by_cases h : 0 ≤ i
  · rw [if_pos h]
    have hd := isDigits_toDigits i.toNat
    have hv := digitsVal_toDigits i.toNat
    have hlt : i.toNat < 2^63 := by omega
    have hm : ∀ r, Nat.toDigits 10 i.toNat ≠ '-' :: r := toDigits_no_minus _
    have hp : ∀ r, Nat.toDigits 10 i.toNat ≠ '+' :: r := by
      intro r hr
      rw [hr] at hd
      simp [isDigits] at hd
    unfold atoi
    split
    · next ds heq => exact absurd heq (hm ds)
    · next ds heq => exact absurd heq (hp ds)
    · rw [hd, hv]
      simp only [Bool.true_and, decide_eq_true_eq, hlt, if_true, Option.some.injEq]
      omega
  · rw [if_neg h]
    have hd := isDigits_toDigits i.natAbs
    have hv := digitsVal_toDigits i.natAbs
    have hlt : i.natAbs ≤ 2^63 := by omega
    simp only [atoi, hd, hv, Bool.true_and, decide_eq_true_eq, hlt, if_true, Option.some.injEq]
    omega

theorem docName_inj {i j : Int} (h : docName i = docName j) : i = j := by
  have h1 := congrArg String.toList h
  rw [docName_toList, docName_toList, List.append_cancel_left_eq] at h1
  rw [toString_int, toString_int] at h1
  split at h1 <;> split at h1
  · have := congrArg digitsVal h1
    rw [digitsVal_toDigits, digitsVal_toDigits] at this
    omega
  · exact absurd h1 (toDigits_no_minus _ _)
  · exact absurd h1.symm (toDigits_no_minus _ _)
  · have h2 := (List.cons.inj h1).2
    have := congrArg digitsVal h2
    rw [digitsVal_toDigits, digitsVal_toDigits] at this
    omega


/-! the state invariant -/

/-- every tag is filed under its (dotted) name -/
def TagsOK (s : TagState E) : Prop := MapOK s.tags ∧ ∀ e ∈ s.tags, e.2.name = e.1 ∧ dotted e.1 = e.1

theorem mem_mset {α : Type} {m : List (String × α)} {k : String} {v : α} {e : String × α} (h : e ∈ mset m k v) : e ∈ m ∨ e = (k, v) := by
  induction m with
  | nil => simp [mset] at h; exact .inr h
  | cons x r ih =>
    obtain ⟨kx, vx⟩ := x
    simp only [mset] at h
    split at h
    · rcases List.mem_cons.1 h with h | h
      · exact .inr h
      · exact .inl (by simp [h])
    · rcases List.mem_cons.1 h with h | h
      · exact .inl (by simp [h])
      · rcases ih h with h | h
        · exact .inl (by simp [h])
        · exact .inr h

theorem tagsOK_new : TagsOK ({} : TagState E) := ⟨by simp [MapOK, mkeys], by simp⟩

theorem tagsOK_set {s : TagState E} (h : TagsOK s) (n : String) (nd : Node E) (p : Option (List String)) (l st : Bool) : TagsOK (setTag s n nd p l st).1 := by
  unfold setTag
  split
  · refine ⟨MapOK_mset h.1 _ _, fun e he => ?_⟩
    rcases mem_mset he with he | rfl
    · exact h.2 e he
    · exact ⟨rfl, dotted_idem n⟩
  · exact h

theorem mget_map_val {α β : Type} (f : α → β) (m : List (String × α)) (k : String) : mget (m.map (fun e => (e.1, f e.2))) k = (mget m k).map f := by
  have := mget_map_snd (fun _ => f) m k
  simpa using this

theorem tagsOK_push {s : TagState E} (h : TagsOK s) (n : Option (Node E)) : TagsOK (pushDoc s n) := by
  have h' : TagsOK (recordDoc s n) := by
    cases n with
    | none => exact h
    | some n => exact tagsOK_set h _ _ _ _ _
  refine ⟨?_, ?_⟩
  · have := h'.1
    unfold MapOK mkeys pushDoc at *
    simpa [List.map_map, Function.comp_def] using this
  · intro e he
    simp only [pushDoc, List.mem_map] at he
    obtain ⟨e', he', rfl⟩ := he
    exact h'.2 e' he'

/-- the tags kept by a stream reset -/
theorem resetStream_get {s : TagState E} (h : TagsOK s) (k : String) :
    mget (resetStream s).tags k = (mget s.tags k).filter (fun t => !t.stream) := by
  have hgen : ∀ (l acc : List (String × Tag E)), (∀ e ∈ l, e.2.name = e.1) →
      l.foldl (fun acc e => mset acc e.2.name e.2) acc = setAll acc l := by
    intro l
    induction l with
    | nil => intro acc _; rfl
    | cons e r ih =>
      intro acc hl
      simp only [List.foldl_cons]
      rw [ih _ (fun x hx => hl x (by simp [hx])), hl e (by simp)]
      obtain ⟨ke, ve⟩ := e
      rfl
  have hf : MapOK (s.tags.filter (fun e => !e.2.stream)) := h.1.sublist (List.Sublist.map _ List.filter_sublist)
  simp only [resetStream]
  rw [hgen _ _ (fun e he => (h.2 e (List.mem_filter.1 he).1).1), setAll_ok_get hf]
  rcases hg : mget s.tags k with _ | t
  · have : mget (s.tags.filter (fun e => !e.2.stream)) k = none := by
      rw [mget_none_iff] at hg ⊢
      intro hk
      apply hg
      unfold mkeys at hk ⊢
      obtain ⟨e, he, hek⟩ := List.mem_map.1 hk
      exact List.mem_map.2 ⟨e, (List.mem_filter.1 he).1, hek⟩
    simp [this, mget]
  · by_cases hs : t.stream
    · have : mget (s.tags.filter (fun e => !e.2.stream)) k = none := by
        rcases hx : mget (s.tags.filter (fun e => !e.2.stream)) k with _ | t'
        · exact hx
        · have hm := List.mem_filter.1 (mget_some_mem hx)
          have := mget_of_mem h.1 hm.1
          rw [hg] at this
          cases this
          simp [hs] at hm
      simp [this, mget, Option.filter, hs]
    · have : mget (s.tags.filter (fun e => !e.2.stream)) k = some t :=
        mget_of_mem hf (List.mem_filter.2 ⟨mget_some_mem hg, by simp [hs]⟩)
      simp [this, Option.filter, hs]

theorem tagsOK_resetStream {s : TagState E} (h : TagsOK s) : TagsOK (resetStream s) := by
  have hgen : ∀ (l acc : List (String × Tag E)), (∀ e ∈ l, e.2.name = e.1) →
      l.foldl (fun acc e => mset acc e.2.name e.2) acc = setAll acc l := by
    intro l
    induction l with
    | nil => intro acc _; rfl
    | cons e r ih =>
      intro acc hl
      simp only [List.foldl_cons]
      rw [ih _ (fun x hx => hl x (by simp [hx])), hl e (by simp)]
      obtain ⟨ke, ve⟩ := e
      rfl
  have hok : MapOK (resetStream s).tags := by
    simp only [resetStream]
    rw [hgen _ _ (fun e he => (h.2 e (List.mem_filter.1 he).1).1)]
    exact setAll_ok _ _ (by simp [MapOK, mkeys])
  refine ⟨hok, fun e he => ?_⟩
  have hg := mget_of_mem hok he
  rw [resetStream_get h, Option.filter_eq_some_iff] at hg
  exact h.2 e (mget_some_mem hg.1)

theorem tagsOK_run {s : TagState E} (h : TagsOK s) (ops : List (TagOp E)) : TagsOK (runTags s ops) := by
  induction ops generalizing s with
  | nil => exact h
  | cons op r ih =>
    refine ih ?_
    cases op with
    | set n nd p st => exact tagsOK_set h _ _ _ _ _
    | push n => exact tagsOK_push h n
    | resetStream => exact tagsOK_resetStream h
    | resetTags => exact tagsOK_new

/-! C19 -/

/-- the name is not in the name space of the document history -/
def PlainTag (n : String) : Prop := hasPrefix (dotted n) "doc." = false

theorem getTag_plain {s : TagState E} {n : String} (h : PlainTag n) : getTag s n = mget s.tags (dotted n) := by
  unfold PlainTag at h
  simp [getTag, tagKey, h]

/-- C19: setting a tag succeeds iff the tag is unknown, or was set in the same document at the same path. -/
theorem set_tag_succeeds_iff (s : TagState E) (n : String) (hn : PlainTag n) (nd : Node E) (p : Option (List String)) (l st : Bool) :
    (setTag s n nd p l st).2 = true ↔ ∀ t, getTag s n = some t → t.isLocal = true ∧ t.path = p := by
  rw [getTag_plain hn, setTag]
  rcases hg : mget s.tags (dotted n) with _ | t
  · simp [tagAllowed]
  · by_cases hp : p = t.path
    · by_cases hl : t.isLocal <;> simp [tagAllowed, hp, hl]
    · simp [tagAllowed, hp, eq_comm (a := t.path)]

/-- C19: a tag that was set successfully denotes the node (without the tag annotations within it). -/
theorem set_tag_found (s : TagState E) (n : String) (hn : PlainTag n) (nd : Node E) (p : Option (List String)) (l st : Bool)
    (h : (setTag s n nd p l st).2 = true) :
    getTag (setTag s n nd p l st).1 n = some ⟨dotted n, cleanup discardTags () nd, p, l, st⟩ := by
  rw [getTag_plain hn]
  unfold setTag at h ⊢
  split at h
  · next hc => rw [if_pos hc]; exact mget_mset_self _ _ _
  · cases h

/-- C19: setting a tag never changes other tags, and none at all if it fails. -/
theorem set_tag_others (s : TagState E) (n : String) (nd : Node E) (p : Option (List String)) (l st : Bool) :
    ((setTag s n nd p l st).2 = false → (setTag s n nd p l st).1 = s) ∧
    ∀ n', PlainTag n' → dotted n' ≠ dotted n → getTag (setTag s n nd p l st).1 n' = getTag s n' := by
  constructor
  · unfold setTag; split <;> simp
  · intro n' hp hn
    rw [getTag_plain hp, getTag_plain hp]
    unfold setTag
    split
    · exact mget_mset_ne _ _ hn
    · rfl

/-- the colon is only another spelling of the separator -/
theorem tag_spelling (s : TagState E) (n : String) : getTag s (dotted n) = getTag s n := by
  simp [getTag, tagKey, dotted_idem]

theorem keep_set {s : TagState E} {k : String} {t : Tag E} (h : mget s.tags k = some t) (hl : t.isLocal = false) (n : String) (nd : Node E)
    (p : Option (List String)) (l st : Bool) : mget (setTag s n nd p l st).1.tags k = some t := by
  unfold setTag
  split
  · next ha =>
    by_cases hk : k = dotted n
    · subst hk
      simp [h, tagAllowed, hl] at ha
    · simp only
      rw [mget_mset_ne _ _ hk]; exact h
  · exact h

theorem keep_push {s : TagState E} {k : String} {t : Tag E} (h : mget s.tags k = some t) (hl : t.isLocal = false) (n : Option (Node E)) :
    mget (pushDoc s n).tags k = some t := by
  have h' : mget (recordDoc s n).tags k = some t := by
    cases n with
    | none => exact h
    | some n => exact keep_set h hl _ _ _ _ _
  simp only [pushDoc]
  rw [mget_map_val, h']
  simp only [Option.map_some, Tag.resetLocal, Option.some.injEq]
  rw [← hl]

theorem keep_run {s : TagState E} (hs : TagsOK s) {k : String} {t : Tag E} (h : mget s.tags k = some t) (hl : t.isLocal = false) (ops : List (TagOp E))
    (h1 : ∀ op ∈ ops, op ≠ .resetTags) (h2 : t.stream = true → ∀ op ∈ ops, op ≠ .resetStream) : mget (runTags s ops).tags k = some t := by
  induction ops generalizing s with
  | nil => exact h
  | cons op r ih =>
    have h1' : ∀ op ∈ r, op ≠ .resetTags := fun o ho => h1 o (by simp [ho])
    have h2' : t.stream = true → ∀ op ∈ r, op ≠ .resetStream := fun hst o ho => h2 hst o (by simp [ho])
    have hok : TagsOK (op.run s) := tagsOK_run hs [op]
    refine ih hok ?_ h1' h2'
    cases op with
    | set n nd p st => exact keep_set h hl _ _ _ _ _
    | push n => exact keep_push h hl n
    | resetStream =>
      by_cases hst : t.stream = true
      · exact absurd rfl (h2 hst _ (by simp))
      · simp only [TagOp.run]
        rw [resetStream_get hs, h]
        simp [hst]
    | resetTags => exact absurd rfl (h1 _ (by simp))

/-- C19: a tag of a finished document is never changed: whatever is processed afterwards (unless all tags are dropped, or for a
stream tag, the stream is reset). -/
theorem finished_tag_kept (s : TagState E) (hs : TagsOK s) (d : Option (Node E)) (n : String) (hn : PlainTag n) (t : Tag E)
    (h : getTag (pushDoc s d) n = some t) (ops : List (TagOp E)) (h1 : ∀ op ∈ ops, op ≠ .resetTags)
    (h2 : t.stream = true → ∀ op ∈ ops, op ≠ .resetStream) :
    getTag (runTags (pushDoc s d) ops) n = some t := by
  rw [getTag_plain hn] at h ⊢
  refine keep_run (tagsOK_push hs d) h ?_ ops h1 h2
  simp only [pushDoc] at h
  rw [mget_map_val] at h
  rcases hx : mget (recordDoc s d).tags (dotted n) with _ | t'
  · simp [hx] at h
  · simp only [hx, Option.map_some, Option.some.injEq] at h
    rw [← h]; rfl

/-- ... and finishing a document does not change any tag but for its scope. -/
theorem push_keeps (s : TagState E) (d : Option (Node E)) (n : String) (hn : PlainTag n) :
    getTag (pushDoc s d) n = (getTag s n).map Tag.resetLocal := by
  rw [getTag_plain hn, getTag_plain hn]
  simp only [pushDoc]
  rw [mget_map_val]
  congr 1
  cases d with
  | none => rfl
  | some d =>
    simp only [recordDoc, setTag]
    split
    · simp only
      rw [dotted_docName, mget_mset_ne]
      intro h
      unfold PlainTag at hn
      rw [h, docName_prefix] at hn
      cases hn
    · rfl

/-! C20 -/

/-- C20: a stream reset drops exactly the stream tags and restarts the document numbering. -/
theorem reset_stream (s : TagState E) (hs : TagsOK s) :
    (resetStream s).docno = 1 ∧ ∀ n, PlainTag n → getTag (resetStream s) n = (getTag s n).filter (fun t => !t.stream) := by
  refine ⟨rfl, fun n hn => ?_⟩
  rw [getTag_plain hn, getTag_plain hn, resetStream_get hs]

/-! C21 -/

/-- no document recorded -/
def NoDocs (s : TagState E) : Prop := s.docno = 1 ∧ ∀ i, mget s.tags (docName i) = none

/-- the documents pushed by a history -/
def pushed : List (TagOp E) → List (Option (Node E))
  | [] => []
  | .push n :: r => n :: pushed r
  | _ :: r => pushed r

theorem history_inv (s : TagState E) (ds : List (Option (Node E))) (ops : List (TagOp E))
    (hd : s.docno = 1 + ds.length) (hm : ∀ i : Int, (mget s.tags (docName i)).map Tag.node = if 1 ≤ i then (ds[(i - 1).toNat]?.join).map (cleanup discardTags ()) else none)
    (hops : ∀ op ∈ ops, (∃ n nd p st, op = .set n nd p st ∧ PlainTag n) ∨ ∃ n, op = .push n) :
    (runTags s ops).docno = 1 + (ds ++ pushed ops).length ∧
    ∀ i : Int, (mget (runTags s ops).tags (docName i)).map Tag.node =
      if 1 ≤ i then ((ds ++ pushed ops)[(i - 1).toNat]?.join).map (cleanup discardTags ()) else none := by
  induction ops generalizing s ds with
  | nil => simp only [pushed, List.append_nil]; exact ⟨hd, hm⟩
  | cons op r ih =>
    have hr : ∀ op ∈ r, (∃ n nd p st, op = .set n nd p st ∧ PlainTag n) ∨ ∃ n, op = .push n := fun o ho => hops o (by simp [ho])
    rcases hops op (by simp) with ⟨n, nd, p, st, rfl, hn⟩ | ⟨n, rfl⟩
    · refine ih _ ds ?_ ?_ hr
      · simp only [TagOp.run, setTag]; split <;> exact hd
      · intro i
        rw [← hm i]
        simp only [TagOp.run, setTag]
        split
        · simp only
          rw [mget_mset_ne]
          intro h
          unfold PlainTag at hn
          rw [← h, docName_prefix] at hn
          cases hn
        · rfl
    · have hpush : ds ++ pushed (.push n :: r) = (ds ++ [n]) ++ pushed r := by simp [pushed]
      rw [hpush]
      refine ih _ (ds ++ [n]) ?_ ?_ hr
      · simp only [TagOp.run, pushDoc, hd, List.length_append, List.length_cons, List.length_nil]
        push_cast; omega
      · intro i
        simp only [TagOp.run, pushDoc]
        rw [mget_map_val, Option.map_map]
        have hnode : (Tag.node ∘ Tag.resetLocal : Tag E → Node E) = Tag.node := rfl
        rw [hnode]
        have hcur := hm s.docno
        have hlen : (s.docno - 1).toNat = ds.length := by omega
        have hlookup : (ds ++ [n])[ds.length]? = some n := by simp
        rw [hlen] at hcur
        simp only [List.getElem?_eq_none (Nat.le_refl ds.length), Option.join_none, Option.map_none, ite_self, Option.map_eq_none_iff] at hcur
        by_cases hi : i = s.docno
        · subst hi
          rw [hlen, hlookup, if_pos (by omega)]
          cases n with
          | none => simp [recordDoc, hcur]
          | some n =>
            simp only [recordDoc, setTag]
            rw [dotted_docName, hcur]
            simp only [tagAllowed, if_true]
            rw [mget_mset_self]
            rfl
        · have hold : mget (recordDoc s n).tags (docName i) = mget s.tags (docName i) := by
            cases n with
            | none => rfl
            | some n =>
              simp only [recordDoc, setTag]
              split
              · simp only
                rw [dotted_docName, mget_mset_ne]
                intro h
                exact hi (docName_inj h)
              · rfl
          rw [hold, hm i]
          by_cases h1 : 1 ≤ i
          · rw [if_pos h1, if_pos h1]
            by_cases hlt : (i - 1).toNat < ds.length
            · rw [List.getElem?_append_left hlt]
            · rw [List.getElem?_eq_none (by omega), List.getElem?_eq_none (by simp; omega)]
          · rw [if_neg h1, if_neg h1]

theorem docName_drop (i : Int) : (docName i).toList.drop 4 = (toString i).toList := by rw [docName_toList]; rfl

/-- the range of Go's `int` -/
def IntRange (i : Int) : Prop := -(2^63) ≤ i ∧ i < 2^63

theorem atoi_big (i : Int) (h : ¬ IntRange i) : atoi (toString i).toList = none := by
  unfold IntRange at h
  rw [toString_int]
  by_cases h0 : 0 ≤ i
  · rw [if_pos h0]
    have hd := isDigits_toDigits i.toNat
    have hv := digitsVal_toDigits i.toNat
    unfold atoi
    split
    · next ds' heq => exact absurd heq (toDigits_no_minus _ _)
    · next ds' heq => rw [heq] at hd; simp [isDigits] at hd
    · rw [hd, hv]
      have : ¬ i.toNat < 2^63 := by omega
      rw [decide_eq_false this]
      rfl
  · rw [if_neg h0]
    have hd := isDigits_toDigits i.natAbs
    have hv := digitsVal_toDigits i.natAbs
    have : ¬ i.natAbs ≤ 2^63 := by omega
    simp only [atoi, hd, hv]
    rw [decide_eq_false this]
    rfl

theorem getTag_doc (s : TagState E) (i : Int) (h : IntRange i) : getTag s (docName i) =
    if i ≤ 0 then (if i + s.docno ≤ 0 then none else mget s.tags (docName (i + s.docno))) else mget s.tags (docName i) := by
  have ha := atoi_toString i h.1 h.2
  simp only [getTag, tagKey, dotted_docName, docName_prefix, if_true, docName_drop, ha]
  by_cases h1 : i ≤ 0
  · rw [if_pos h1, if_pos h1]
    by_cases h2 : i + s.docno ≤ 0
    · rw [if_pos h2, if_pos h2]
    · rw [if_neg h2, if_neg h2]
  · rw [if_neg h1, if_neg h1]

theorem getTag_big (s : TagState E) (i : Int) (h : ¬ IntRange i) : getTag s (docName i) = none := by
  simp only [getTag, tagKey, dotted_docName, docName_prefix, if_true, docName_drop, atoi_big i h]

/-- C21: after pushing the documents `ds` (with any tags being set in between): `doc.i` denotes the i-th document, `doc.-k` the one
k documents before the current one, anything else is not found. -/
theorem document_history (s : TagState E) (hs : NoDocs s) (ops : List (TagOp E))
    (hops : ∀ op ∈ ops, (∃ n nd p st, op = .set n nd p st ∧ PlainTag n) ∨ ∃ n, op = .push n) (hlen : IntRange (pushed ops).length) :
    (∀ i : Nat, i < (pushed ops).length → (getTag (runTags s ops) (docName (i + 1))).map Tag.node = ((pushed ops)[i]?.join).map (cleanup discardTags ())) ∧
    (∀ k : Nat, 1 ≤ k → k ≤ (pushed ops).length →
      (getTag (runTags s ops) (docName (-k))).map Tag.node = ((pushed ops)[(pushed ops).length - k]?.join).map (cleanup discardTags ())) ∧
    getTag (runTags s ops) (docName 0) = none ∧
    ∀ i : Nat, (pushed ops).length < i → getTag (runTags s ops) (docName i) = none ∧ getTag (runTags s ops) (docName (-i)) = none := by
  obtain ⟨h1, h2⟩ := history_inv s [] ops (by simp [hs.1]) (fun i => by simp [hs.2 i]) hops
  simp only [List.nil_append] at h1 h2
  generalize pushed ops = ds at *
  generalize runTags s ops = s' at *
  have hnone : ∀ i : Int, (i < 1 ∨ (ds.length : Int) < i) → mget s'.tags (docName i) = none := by
    intro i hi
    have := h2 i
    rcases hi with hi | hi
    · rw [if_neg (by omega)] at this
      exact Option.map_eq_none_iff.1 this
    · rw [List.getElem?_eq_none (by omega)] at this
      simpa using this
  have hr : ∀ i : Nat, i ≤ ds.length → IntRange i ∧ IntRange (-i) := by
    intro i hi
    unfold IntRange at *
    omega
  refine ⟨?_, ?_, ?_, ?_⟩
  · intro i hi
    have hx := (hr (i + 1) (by omega)).1
    rw [Int.natCast_add, Int.natCast_one] at hx
    rw [getTag_doc _ _ hx, if_neg (by omega), h2, if_pos (by omega), show ((i : Int) + 1 - 1).toNat = i by omega]
  · intro k hk1 hk2
    rw [getTag_doc _ _ (hr k hk2).2, if_pos (by omega), if_neg (by omega), h2, if_pos (by omega),
      show (-(k : Int) + s'.docno - 1).toNat = ds.length - k by omega]
  · rw [getTag_doc _ 0 (hr 0 (by omega)).1, if_pos (by omega), if_neg (by omega)]
    exact hnone _ (.inr (by omega))
  · intro i hi
    constructor
    · by_cases hb : IntRange i
      · rw [getTag_doc _ _ hb, if_neg (by omega)]
        exact hnone _ (.inr (by omega))
      · exact getTag_big _ _ hb
    · by_cases hb : IntRange (-i)
      · rw [getTag_doc _ _ hb, if_pos (by omega), if_pos (by omega)]
      · exact getTag_big _ _ hb


/-- C21: the numbering is not safe against a stream reset: the documents are kept as global tags, so after processing `d1`, a stream
reset and `d2`, both `doc.1` and `doc.-1` denote `d1`, and `d2` is not recorded at all. -/
theorem stale_document_defect (d1 d2 : Node E) :
    let s := runTags {} [.push (some d1), .resetStream, .push (some d2)]
    (getTag s (docName 1)).map Tag.node = some (cleanup discardTags () d1) ∧
    (getTag s (docName (-1))).map Tag.node = some (cleanup discardTags () d1) := by
  have e1 : pushDoc ({} : TagState E) (some d1) = ⟨[(docName 1, ⟨docName 1, cleanup discardTags () d1, none, false, false⟩)], 2⟩ := by
    simp [pushDoc, recordDoc, setTag, tagAllowed, mget, mset, dotted_docName, Tag.resetLocal]
  have e2 : runTags {} [.push (some d1), .resetStream, .push (some d2)] =
      (⟨[(docName 1, ⟨docName 1, cleanup discardTags () d1, none, false, false⟩)], 2⟩ : TagState E) := by
    simp [runTags, TagOp.run, e1, resetStream, mset, pushDoc, recordDoc, setTag, tagAllowed, mget, dotted_docName, Tag.resetLocal]
  have r1 : IntRange 1 := by unfold IntRange; omega
  have r2 : IntRange (-1) := by unfold IntRange; omega
  simp only [e2]
  constructor
  · rw [getTag_doc _ _ r1]; simp [mget]
  · rw [getTag_doc _ _ r2]; simp [mget]

/-- C19: a tag in the name space of the document history that is no number is accepted but never found. -/
theorem doc_named_tag_lost_defect (s : TagState E) (x : String) (hx : atoi (dotted x).toList = none) (nd : Node E) (p : Option (List String))
    (l st : Bool) : getTag (setTag s ("doc." ++ x) nd p l st).1 ("doc." ++ x) = none := by
  have hd : dotted ("doc." ++ x) = "doc." ++ dotted x := by
    apply String.toList_injective
    simp [dotted, String.toList_append]
  have hp : hasPrefix ("doc." ++ dotted x) "doc." = true := by
    rw [hasPrefix, String.toList_append]; simp
  have hdr : ("doc." ++ dotted x).toList.drop 4 = (dotted x).toList := by
    rw [String.toList_append]; rfl
  simp only [getTag, tagKey, hd, hp, if_true, hdr, hx]

/-- C19: predefined tags are taken as they are: a name with a colon is never found. -/
theorem predefined_colon_tag_lost_defect (t : Tag E) (h : ':' ∈ t.name.toList) (n : String) (hn : PlainTag n) : getTag (setTags [t]) n = none := by
  rw [getTag_plain hn]
  simp only [setTags, List.foldl, mset, mget]
  split
  · next hk =>
    exfalso
    have : ':' ∉ (dotted n).toList := by
      simp only [dotted, String.toList_ofList, List.mem_map, not_exists, not_and]
      intro c _ hc
      by_cases h : c = ':' <;> simp [h] at hc
    rw [← hk] at this
    exact this h
  · rfl

/-! C60: tagged references -/

theorem mem_insertTag {a t : Tag E} {l : List (Tag E)} : t ∈ insertTag a l ↔ t = a ∨ t ∈ l := by
  induction l with
  | nil => simp [insertTag]
  | cons b r ih =>
    simp only [insertTag]
    split
    · simp only [List.mem_cons, ih]
      constructor <;> (rintro (h | h | h) <;> simp [h])
    · simp

theorem mem_sortTags {t : Tag E} {l : List (Tag E)} : t ∈ l.foldr insertTag [] ↔ t ∈ l := by
  induction l with
  | nil => simp
  | cons a r ih => simp [mem_insertTag, ih]

/-- ordered by level -/
def ByLevel (l : List (Tag E)) : Prop := l.Pairwise (fun a b => tagLevel a.name ≤ tagLevel b.name)

theorem byLevel_insert {a : Tag E} {l : List (Tag E)} (h : ByLevel l) : ByLevel (insertTag a l) := by
  induction l with
  | nil => simp [insertTag, ByLevel]
  | cons b r ih =>
    have hr : ByLevel r := (List.pairwise_cons.1 h).2
    have hb := (List.pairwise_cons.1 h).1
    simp only [insertTag]
    split
    · next hl =>
      refine List.pairwise_cons.2 ⟨fun x hx => ?_, ih hr⟩
      rcases mem_insertTag.1 hx with rfl | hx
      · unfold tagLess at hl
        split at hl
        · simp at hl; omega
        · omega
      · exact hb x hx
    · next hl =>
      refine List.pairwise_cons.2 ⟨fun x hx => ?_, h⟩
      have hab : tagLevel a.name ≤ tagLevel b.name := by
        unfold tagLess at hl
        split at hl
        · simp at hl; omega
        · omega
      rcases List.mem_cons.1 hx with rfl | hx
      · exact hab
      · exact Nat.le_trans hab (hb x hx)

theorem byLevel_sort (l : List (Tag E)) : ByLevel (l.foldr insertTag []) := by
  induction l with
  | nil => simp [ByLevel]
  | cons a r ih => exact byLevel_insert ih

/-- The tags a name denotes: the tag of this name and all tags below. -/
def Denotes (s : TagState E) (ref : String) (t : Tag E) : Prop :=
  ∃ k, mget s.tags k = some t ∧ (k = dotted ref ∨ (dotted ref ++ ".").toList <+: k.toList)

theorem hasPrefix_iff {a b : String} : hasPrefix a b = true ↔ b.toList <+: a.toList := by
  unfold hasPrefix
  exact List.isPrefixOf_iff_prefix

theorem mem_getTags {s : TagState E} (hs : TagsOK s) {ref : String} (hn : PlainTag ref) {t : Tag E} : t ∈ getTags s ref ↔ Denotes s ref t := by
  unfold PlainTag at hn
  simp only [getTags, hn, Bool.false_eq_true, if_false]
  rw [mem_sortTags, List.mem_filterMap]
  constructor
  · rintro ⟨e, he, h⟩
    split at h
    · next hc =>
      cases h
      have hk := (hs.2 e he).1
      refine ⟨e.1, mget_of_mem hs.1 he, ?_⟩
      rw [hk] at hc
      simp only [Bool.or_eq_true, decide_eq_true_eq, hasPrefix_iff] at hc
      exact hc
    · cases h
  · rintro ⟨k, hk, hc⟩
    have hm := mget_some_mem hk
    refine ⟨(k, t), hm, ?_⟩
    have hname : t.name = k := (hs.2 _ hm).1
    rw [if_pos]
    simp only [Bool.or_eq_true, decide_eq_true_eq, hasPrefix_iff, hname]
    exact hc

theorem getTags_nodup {s : TagState E} (hs : TagsOK s) {ref : String} (hn : PlainTag ref) : ((getTags s ref).map Tag.name).Nodup := by
  unfold PlainTag at hn
  simp only [getTags, hn, Bool.false_eq_true, if_false]
  have hins : ∀ (a : Tag E) (l : List (Tag E)), ((insertTag a l).map Tag.name).Perm (a.name :: l.map Tag.name) := by
    intro a l
    induction l with
    | nil => simp [insertTag]
    | cons b r ih =>
      simp only [insertTag]
      split
      · simp only [List.map_cons]
        exact (ih.cons _).trans (List.Perm.swap ..)
      · simp
  have hsort : ∀ l : List (Tag E), ((l.foldr insertTag []).map Tag.name).Perm (l.map Tag.name) := by
    intro l
    induction l with
    | nil => simp
    | cons a r ih => simp only [List.foldr_cons]; exact (hins a _).trans (ih.cons _)
  rw [(hsort _).nodup_iff]
  have hk := hs.1
  have hnm := hs.2
  generalize s.tags = l at hk hnm
  induction l with
  | nil => simp
  | cons e r ih =>
    have hr : MapOK r := (List.nodup_cons.1 hk).2
    have ih' := ih hr (fun x hx => hnm x (by simp [hx]))
    simp only [List.filterMap_cons]
    split
    · exact ih'
    · next t ht =>
      split at ht
      · cases ht
        simp only [List.map_cons, List.nodup_cons]
        refine ⟨?_, ih'⟩
        intro hc
        rw [List.mem_map] at hc
        obtain ⟨t, ht, hte⟩ := hc
        rw [List.mem_filterMap] at ht
        obtain ⟨e', he', hx⟩ := ht
        split at hx
        · cases hx
          have h1 := (hnm e' (by simp [he'])).1
          have h2 := (hnm e (by simp)).1
          apply (List.nodup_cons.1 hk).1
          show e.1 ∈ mkeys r
          rw [← h2, ← hte, h1]
          exact List.mem_map.2 ⟨e', he', rfl⟩
        · cases hx
      · cases ht

/-- The meaning of a reference by tag: among the tags `cand` providing the path, the one with the lowest level, which must be unique. -/
def TagMeaning {α : Type} (cand : Tag E → Prop) (find : Tag E → Option α) : TagRes E α → Prop
  | .notFound => ∀ t, cand t → find t = none
  | .found t v => cand t ∧ find t = some v ∧ ∀ t', cand t' → find t' ≠ none → t'.name ≠ t.name → tagLevel t.name < tagLevel t'.name
  | .ambiguous a b => a ≠ b ∧ tagLevel a = tagLevel b ∧ (∃ t, cand t ∧ t.name = a ∧ find t ≠ none) ∧ (∃ t, cand t ∧ t.name = b ∧ find t ≠ none) ∧
      ∀ t, cand t → find t ≠ none → tagLevel a ≤ tagLevel t.name

theorem prefix_level {k n : String} (h : (n ++ ".").toList <+: k.toList) : tagLevel n < tagLevel k := by
  obtain ⟨r, hr⟩ := h
  simp only [tagLevel]
  rw [← hr, String.toList_append]
  have : ".".toList = ['.'] := rfl
  rw [this]
  simp only [List.filter_append, List.length_append]
  have : (List.filter (fun c => decide (c = ':') || decide (c = '.')) ['.']).length = 1 := by decide
  omega

theorem tagLoop_some {α : Type} (ref : String) (find : Tag E → Option α) (f : Tag E) (w : α) (hf : find f = some w) :
    ∀ (r : List (Tag E)), ByLevel (f :: r) → ((f :: r).map Tag.name).Nodup → (∀ t ∈ f :: r, t.name = ref → ∀ t' ∈ f :: r, t'.name ≠ ref → tagLevel ref < tagLevel t'.name) →
      f.name ≠ ref → TagMeaning (· ∈ f :: r) find (tagLoop ref find (some (f, w)) r) := by
  intro r
  induction r with
  | nil =>
    intro _ _ _ _
    refine ⟨by simp, hf, fun t' ht' _ hne => ?_⟩
    simp only [List.mem_singleton] at ht'
    exact absurd (ht' ▸ rfl) hne
  | cons t r ih =>
    intro hl hnd href hfr
    have hl1 := List.pairwise_cons.1 hl
    have hl2 := List.pairwise_cons.1 hl1.2
    simp only [tagLoop]
    split
    · next hlt =>
      refine ⟨by simp, hf, fun t' ht' _ hne => ?_⟩
      rcases List.mem_cons.1 ht' with rfl | ht'
      · exact absurd rfl hne
      · rcases List.mem_cons.1 ht' with rfl | ht'
        · exact hlt
        · exact Nat.lt_of_lt_of_le hlt (hl2.1 t' ht')
    · next hge =>
      have heq : tagLevel f.name = tagLevel t.name := by
        have := hl1.1 t (by simp)
        omega
      split
      · next hn =>
        have hl' : ByLevel (f :: r) := List.pairwise_cons.2 ⟨fun x hx => hl1.1 x (by simp [hx]), hl2.2⟩
        have hnd' : ((f :: r).map Tag.name).Nodup := by
          simp only [List.map_cons, List.nodup_cons, List.mem_cons, not_or] at hnd ⊢
          exact ⟨hnd.1.2, hnd.2.2⟩
        have hsub : ∀ x, x ∈ f :: r → x ∈ f :: t :: r := by
          intro x hx
          rcases List.mem_cons.1 hx with rfl | hx <;> simp [*]
        have := ih hl' hnd' (fun x hx hxr y hy => href x (hsub x hx) hxr y (hsub y hy)) hfr
        have hback : ∀ x, x ∈ f :: t :: r → find x ≠ none → x ∈ f :: r := by
          intro x hx hx2
          rcases List.mem_cons.1 hx with rfl | hx
          · simp
          · rcases List.mem_cons.1 hx with rfl | hx
            · exact absurd hn hx2
            · simp [hx]
        revert this
        generalize tagLoop ref find (some (f, w)) r = res
        cases res with
        | notFound =>
          intro h x hx
          by_cases hx2 : find x = none
          · exact hx2
          · exact h x (hback x hx hx2)
        | found t' v => exact fun h => ⟨hsub _ h.1, h.2.1, fun x hx hx2 => h.2.2 x (hback x hx hx2) hx2⟩
        | ambiguous a b =>
          rintro ⟨h1, h2, ⟨x, hx, hx'⟩, ⟨y, hy, hy'⟩, h5⟩
          exact ⟨h1, h2, ⟨x, hsub x hx, hx'⟩, ⟨y, hsub y hy, hy'⟩, fun z hz hz2 => h5 z (hback z hz hz2) hz2⟩
      · next v hv =>
        have hfne : f.name ≠ t.name := by
          simp only [List.map_cons, List.nodup_cons, List.mem_cons, not_or] at hnd
          exact hnd.1.1
        split
        · next htr =>
          exfalso
          have := href t (by simp) htr f (by simp) hfr
          rw [← htr] at this
          omega
        · refine ⟨hfne, heq, ⟨f, by simp, rfl, by simp [hf]⟩, ⟨t, by simp, rfl, by simp [hv]⟩, fun x hx _ => ?_⟩
          rcases List.mem_cons.1 hx with rfl | hx
          · exact Nat.le_refl _
          · exact hl1.1 x hx

theorem tagLoop_none {α : Type} (ref : String) (find : Tag E → Option α) :
    ∀ (r : List (Tag E)), ByLevel r → (r.map Tag.name).Nodup → (∀ t ∈ r, t.name = ref → ∀ t' ∈ r, t'.name ≠ ref → tagLevel ref < tagLevel t'.name) →
      TagMeaning (· ∈ r) find (tagLoop ref find none r) := by
  intro r
  induction r with
  | nil => intro _ _ _; simp [tagLoop, TagMeaning]
  | cons t r ih =>
    intro hl hnd href
    have hl1 := List.pairwise_cons.1 hl
    simp only [tagLoop]
    split
    · next hn =>
      have := ih hl1.2 (by simp only [List.map_cons, List.nodup_cons] at hnd; exact hnd.2)
        (fun x hx hxr y hy => href x (by simp [hx]) hxr y (by simp [hy]))
      have hback : ∀ x, x ∈ t :: r → find x ≠ none → x ∈ r := by
        intro x hx hx2
        rcases List.mem_cons.1 hx with rfl | hx
        · exact absurd hn hx2
        · exact hx
      revert this
      generalize tagLoop ref find none r = res
      cases res with
      | notFound =>
        intro h x hx
        by_cases hx2 : find x = none
        · exact hx2
        · exact h x (hback x hx hx2)
      | found t' v => exact fun h => ⟨List.mem_cons_of_mem _ h.1, h.2.1, fun x hx hx2 => h.2.2 x (hback x hx hx2) hx2⟩
      | ambiguous a b =>
        rintro ⟨h1, h2, ⟨x, hx, hx'⟩, ⟨y, hy, hy'⟩, h5⟩
        exact ⟨h1, h2, ⟨x, List.mem_cons_of_mem _ hx, hx'⟩, ⟨y, List.mem_cons_of_mem _ hy, hy'⟩, fun z hz hz2 => h5 z (hback z hz hz2) hz2⟩
    · next v hv =>
      split
      · next htr =>
        refine ⟨by simp, hv, fun t' ht' _ hne => ?_⟩
        rw [htr] at hne ⊢
        exact href t (by simp) htr t' ht' hne
      · next htr => exact tagLoop_some ref find t v hv r hl hnd href htr

/-- C60: a reference to a path by a tag name selects, among the tags of this name or below it providing the path, the unique one of
the lowest level; without a unique one it fails. -/
theorem tag_reference (s : TagState E) (hs : TagsOK s) (ref : String) (hn : PlainTag ref) {α : Type} (find : Tag E → Option α) :
    TagMeaning (Denotes s ref) find (tagPathRef s ref find) := by
  have hb : ByLevel (getTags s ref) := by
    unfold PlainTag at hn
    simp only [getTags, hn, Bool.false_eq_true, if_false]
    exact byLevel_sort _
  have href : ∀ t ∈ getTags s ref, t.name = ref → ∀ t' ∈ getTags s ref, t'.name ≠ ref → tagLevel ref < tagLevel t'.name := by
    intro t ht htr t' ht' hne
    obtain ⟨k, hk, hd⟩ := (mem_getTags hs hn).1 ht
    obtain ⟨k', hk', hd'⟩ := (mem_getTags hs hn).1 ht'
    have h1 := hs.2 _ (mget_some_mem hk)
    have h2 := hs.2 _ (mget_some_mem hk')
    have hdr : dotted ref = ref := by
      have := h1.2
      rw [← h1.1] at this
      simpa [htr] using this
    rw [hdr] at hd'
    have h21 : t'.name = k' := h2.1
    rcases hd' with hd' | hd'
    · exact absurd (h21.trans hd') hne
    · rw [h21]; exact prefix_level hd'
  have := tagLoop_none ref find (getTags s ref) hb (getTags_nodup hs hn) href
  have hc : (fun t => t ∈ getTags s ref) = Denotes s ref := by
    funext t
    exact propext (mem_getTags hs hn)
  rw [hc] at this
  exact this

/-- ... in particular the tag of exactly this name is preferred to all tags below it. -/
theorem exact_tag_wins (s : TagState E) (hs : TagsOK s) (ref : String) (hn : PlainTag ref) {α : Type} (find : Tag E → Option α)
    (t : Tag E) (ht : getTag s ref = some t) (v : α) (hv : find t = some v) : tagPathRef s ref find = .found t v := by
  rw [getTag_plain hn] at ht
  have hm := tag_reference s hs ref hn find
  have hd : Denotes s ref t := ⟨_, ht, .inl rfl⟩
  have hlow : ∀ t', Denotes s ref t' → t'.name ≠ t.name → tagLevel t.name < tagLevel t'.name := by
    rintro t' ⟨k', hk', hd'⟩ hne
    have h1 : t.name = dotted ref := (hs.2 _ (mget_some_mem ht)).1
    have h2 : t'.name = k' := (hs.2 _ (mget_some_mem hk')).1
    rcases hd' with hd' | hd'
    · exact absurd (h2.trans (hd'.trans h1.symm)) hne
    · rw [h1, h2]; exact prefix_level hd'
  have huniq : ∀ t', Denotes s ref t' → t'.name = t.name → t' = t := by
    rintro t' ⟨k', hk', _⟩ hne
    have h1 : t.name = dotted ref := (hs.2 _ (mget_some_mem ht)).1
    have h2 : t'.name = k' := (hs.2 _ (mget_some_mem hk')).1
    have : k' = dotted ref := h2.symm.trans (hne.trans h1)
    rw [this, ht] at hk'
    exact (Option.some.inj hk').symm
  revert hm
  generalize tagPathRef s ref find = res
  cases res with
  | notFound => intro h; exact absurd (h t hd) (by simp [hv])
  | found t' v' =>
    rintro ⟨h1, h2, h3⟩
    by_cases hne : t'.name = t.name
    · have := huniq t' h1 hne
      subst this
      rw [hv] at h2
      cases h2
      rfl
    · have ha := h3 t hd (by simp [hv]) (fun h => hne h.symm)
      have hb := hlow t' h1 hne
      omega
  | ambiguous a b =>
    rintro ⟨h1, h2, ⟨x, hx, hxa, _⟩, ⟨y, hy, hyb, _⟩, h5⟩
    have h6 := h5 t hd (by simp [hv])
    exfalso
    by_cases hxt : x.name = t.name
    · have hyt : y.name ≠ t.name := fun h => h1 (by rw [← hxa, ← hyb, hxt, h])
      have := hlow y hy hyt
      rw [hyb, ← h2, ← hxa, hxt] at this
      omega
    · have := hlow x hx hxt
      rw [hxa] at this
      omega

/-- C60: a reference to the node of a tag: the tag of this name (spelled with dots) or the only one below it. -/
theorem tag_root_reference (s : TagState E) (hs : TagsOK s) (ref : String) (hn : PlainTag ref) (t : Tag E) :
    tagRootRef s ref = .found t t.node ↔
      (Denotes s ref t ∧ ((∀ t', Denotes s ref t' → t'.name = t.name) ∨ t.name = ref)) := by
  have hm := @mem_getTags E s hs ref hn
  have hnd := getTags_nodup hs hn
  have huniq : ∀ t t', Denotes s ref t → Denotes s ref t' → t'.name = t.name → t' = t := by
    rintro t t' ⟨k, hk, _⟩ ⟨k', hk', _⟩ hne
    have h1 : t.name = k := (hs.2 _ (mget_some_mem hk)).1
    have h2 : t'.name = k' := (hs.2 _ (mget_some_mem hk')).1
    have : k' = k := h2.symm.trans (hne.trans h1)
    rw [this, hk] at hk'
    exact (Option.some.inj hk').symm
  have hlow : ∀ t', Denotes s ref t' → dotted ref = ref → t'.name ≠ ref → tagLevel ref < tagLevel t'.name := by
    rintro t' ⟨k', hk', hd'⟩ hdr hne
    have h2 : t'.name = k' := (hs.2 _ (mget_some_mem hk')).1
    rw [hdr] at hd'
    rcases hd' with hd' | hd'
    · exact absurd (h2.trans hd') hne
    · rw [h2]; exact prefix_level hd'
  have hdot : ∀ t, Denotes s ref t → t.name = ref → dotted ref = ref := by
    rintro t ⟨k, hk, _⟩ htr
    have h1 := hs.2 _ (mget_some_mem hk)
    have h2 : t.name = k := h1.1
    have h3 : dotted k = k := h1.2
    rw [← h2, htr] at h3
    exact h3
  have hb : ByLevel (getTags s ref) := by
    unfold PlainTag at hn
    simp only [getTags, hn, Bool.false_eq_true, if_false]
    exact byLevel_sort _
  unfold tagRootRef
  split
  · next h =>
    rw [h] at hm
    constructor
    · intro h; cases h
    · rintro ⟨hd, _⟩; have := hm.2 hd; simp at this
  · next t0 h =>
    rw [h] at hm
    have hd0 : Denotes s ref t0 := hm.1 (by simp)
    constructor
    · intro h; cases h
      refine ⟨hd0, .inl fun t' ht' => ?_⟩
      have := hm.2 ht'
      simp only [List.mem_singleton] at this
      rw [this]
    · rintro ⟨hd, _⟩
      have := hm.2 hd
      simp only [List.mem_singleton] at this
      rw [this]
  · next t0 t1 r h =>
    rw [h] at hm hnd hb
    have hd0 : Denotes s ref t0 := hm.1 (by simp)
    have hd1 : Denotes s ref t1 := hm.1 (by simp)
    have h01 : t0.name ≠ t1.name := by
      simp only [List.map_cons, List.nodup_cons, List.mem_cons, not_or] at hnd
      exact hnd.1.1
    split
    · next h0 =>
      constructor
      · intro h; cases h; exact ⟨hd0, .inr h0⟩
      · rintro ⟨hd, hx | hx⟩
        · exact absurd ((hx t0 hd0).trans (hx t1 hd1).symm) h01
        · rw [huniq t t0 hd hd0 (h0.trans hx.symm)]
    · next h0 =>
      constructor
      · intro h; cases h
      · rintro ⟨hd, hx | hx⟩
        · exact absurd ((hx t0 hd0).trans (hx t1 hd1).symm) h01
        · exfalso
          have h1 := hlow t0 hd0 (hdot t hd hx) h0
          have hmem := hm.2 hd
          rcases List.mem_cons.1 hmem with rfl | hmem
          · exact h0 hx
          · have := (List.pairwise_cons.1 hb).1 t hmem
            rw [hx] at this
            omega

/-- C60: with the other separator the tag itself is not preferred: it is ambiguous as soon as there are tags below it. -/
theorem colon_reference_defect (nd : Node E) :
    let s := runTags {} [.set "a:b" nd (some ["x"]) false, .set "a.b.c" nd (some ["y"]) false]
    tagRootRef s "a:b" = .ambiguous "a.b" "a.b.c" ∧ tagRootRef s "a.b" = .found ⟨"a.b", cleanup discardTags () nd, some ["x"], true, false⟩ (cleanup discardTags () nd) := by
  have h1 : dotted "a:b" = "a.b" := by decide +kernel
  have h2 : dotted "a.b.c" = "a.b.c" := by decide +kernel
  have h3 : dotted "a.b" = "a.b" := by decide +kernel
  have e : runTags {} [.set "a:b" nd (some ["x"]) false, .set "a.b.c" nd (some ["y"]) false] =
      (⟨[("a.b", ⟨"a.b", cleanup discardTags () nd, some ["x"], true, false⟩), ("a.b.c", ⟨"a.b.c", cleanup discardTags () nd, some ["y"], true, false⟩)], 1⟩ : TagState E) := by
    simp [runTags, TagOp.run, setTag, tagAllowed, mget, mset, h1, h2]
  have hp : hasPrefix "a.b" "doc." = false := by decide +kernel
  have hp1 : hasPrefix "a.b" "a.b." = false := by decide +kernel
  have hp2 : hasPrefix "a.b.c" "a.b." = true := by decide +kernel
  have hl1 : tagLevel "a.b" = 1 := by decide +kernel
  have hl2 : tagLevel "a.b.c" = 2 := by decide +kernel
  simp only [e]
  constructor
  · simp [tagRootRef, getTags, h1, hp, hp1, hp2, List.filterMap_cons, insertTag, tagLess, hl1, hl2]
  · simp [tagRootRef, getTags, h3, hp, hp1, hp2, List.filterMap_cons, insertTag, tagLess, hl1, hl2]

/-! Instances: the hypotheses are met. -/

example (n1 n2 n3 : Node E) (n : String) : TagsOK (runTags ({} : TagState E) [.set n n1 (some ["x"]) true, .push (some n2), .set "b:c" n1 (some ["y"]) false, .push (some n3)]) :=
  tagsOK_run tagsOK_new _

theorem plain_example : PlainTag "b:c" := by unfold PlainTag; decide +kernel

/-- a tag set in the first document is still found in the third one -/
example (n1 n2 n3 : Node E) : (getTag (runTags ({} : TagState E) [.set "b:c" n1 (some ["y"]) true, .push (some n2), .push (some n3)]) "b:c").map Tag.node =
    some (cleanup discardTags () n1) := by
  have h1 := set_tag_found ({} : TagState E) "b:c" plain_example n1 (some ["y"]) true true (by simp [setTag, tagAllowed, mget])
  have h2 : getTag (pushDoc (setTag ({} : TagState E) "b:c" n1 (some ["y"]) true true).1 (some n2)) "b:c" = some ⟨dotted "b:c", cleanup discardTags () n1, some ["y"], false, true⟩ := by
    rw [push_keeps _ _ _ plain_example, h1]; rfl
  have h3 := finished_tag_kept _ (tagsOK_set tagsOK_new _ _ _ _ _) (some n2) "b:c" plain_example _ h2 [.push (some n3)] (by simp) (by simp)
  have h4 : runTags ({} : TagState E) [.set "b:c" n1 (some ["y"]) true, .push (some n2), .push (some n3)] =
    runTags (pushDoc (setTag ({} : TagState E) "b:c" n1 (some ["y"]) true true).1 (some n2)) [.push (some n3)] := by
    simp only [runTags, List.foldl_cons, List.foldl_nil, TagOp.run]
  rw [h4, h3]
  rfl

/-- the second of two documents -/
example (n1 n2 : Node E) : (getTag (runTags ({} : TagState E) [.push (some n1), .push (some n2)]) (docName (-(1 : Nat)))).map Tag.node =
    some (cleanup discardTags () n2) := by
  have hr : IntRange (pushed [TagOp.push (some n1), .push (some n2)]).length := by
    simp only [pushed, List.length_cons, List.length_nil]; unfold IntRange; omega
  have := (document_history ({} : TagState E) ⟨rfl, fun _ => rfl⟩ [.push (some n1), .push (some n2)]
    (by intro op hop; simp only [List.mem_cons, List.not_mem_nil, or_false] at hop; rcases hop with rfl | rfl <;> exact .inr ⟨_, rfl⟩) hr).2.1 1 (by omega) (by simp [pushed])
  rw [this]
  rfl

end Spiff
