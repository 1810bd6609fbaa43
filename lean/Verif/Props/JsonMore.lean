import Verif.Props.Json
import Verif.Props.YamlMarshal
/-
C87: when a document can be written as JSON, the order of the fields, and what is not read back.
-/
namespace Spiff
open Spec
variable {E : Type}

theorem items_fail (J : Nat → YText) (l : List (Node E)) : (normalizeL l).bind (jsonItems J) = none ↔ ∃ n ∈ l, toJson J n = none := by
  induction l with
  | nil => simp [normalizeL, jsonItems]
  | cons n r ih =>
    have hn : toJson J n = (normalize n).bind (jsonText J) := rfl
    rw [normalizeL]
    cases h1 : normalize n with
    | none =>
      have : consOpt (none : Option Data) (normalizeL r) = none := consOpt_none.2 (.inl rfl)
      rw [this]
      simp [hn, h1]
    | some d =>
      cases h2 : normalizeL r with
      | none =>
        rw [h2] at ih
        have := ih.1 rfl
        simp only [consOpt, Option.bind_none, true_iff]
        obtain ⟨x, hx, h⟩ := this
        exact ⟨x, by simp [hx], h⟩
      | some ds =>
        rw [h2, Option.bind_some] at ih
        rw [h1, Option.bind_some] at hn
        simp only [consOpt, Option.bind_some, jsonItems, List.mem_cons, exists_eq_or_imp, hn, ← ih]
        cases jsonText J d <;> cases jsonItems J ds <;> simp

theorem members_fail (J : Nat → YText) (m : List (String × Node E)) :
    (normalizeM m).bind (jsonMembers J) = none ↔ ∃ e ∈ m, toJson J e.2 = none := by
  induction m with
  | nil => simp [normalizeM, jsonMembers]
  | cons e r ih =>
    obtain ⟨k, n⟩ := e
    have hn : toJson J n = (normalize n).bind (jsonText J) := rfl
    rw [normalizeM]
    cases h1 : normalize n with
    | none =>
      have : consOpt (none : Option (String × Data)) (normalizeM r) = none := consOpt_none.2 (.inl rfl)
      rw [Option.map_none, this]
      simp [hn, h1]
    | some d =>
      cases h2 : normalizeM r with
      | none =>
        rw [h2] at ih
        have := ih.1 rfl
        simp only [consOpt, Option.map_some, Option.bind_none, true_iff]
        obtain ⟨x, hx, h⟩ := this
        exact ⟨x, by simp [hx], h⟩
      | some ds =>
        rw [h2, Option.bind_some] at ih
        rw [h1, Option.bind_some] at hn
        simp only [consOpt, Option.map_some, Option.bind_some, jsonMembers, List.mem_cons, exists_eq_or_imp, hn, ← ih]
        cases jsonText J d <;> cases jsonMembers J ds <;> simp

theorem toJson_list (J : Nat → YText) (l : List (Node E)) (s : String) (a : Ann) :
    toJson J (.mk (.list l) s a) = ((normalizeL l).bind (jsonItems J)).map (fun ts => '[' :: (commaJoin ts ++ [']'])) := by
  simp only [toJson, normalize, normalizeV]
  cases normalizeL l <;> rfl

theorem toJson_map (J : Nat → YText) (m : List (String × Node E)) (s : String) (a : Ann) :
    toJson J (.mk (.map m) s a) = ((normalizeM m).bind (jsonMembers J)).map (fun em => '{' :: (commaJoin (jsonFields em) ++ ['}'])) := by
  simp only [toJson, normalize, normalizeV]
  cases normalizeM m <;> rfl

/-- a value there is no JSON text for: an expression, or a number that is not finite -/
def NoJson (v : Val E) : Prop := (∃ e, v = .expr e) ∨ ∃ b, v = .float b ∧ (isNaN b = true ∨ b = 0x7FF0000000000000 ∨ b = 0xFFF0000000000000)

/-- **C87**: writing a document as JSON fails exactly if there is an expression or a number that is not finite in it. -/
theorem json_fails_iff (J : Nat → YText) (n : Node E) (hg : GoMaps n) :
    toJson J n = none ↔ ∃ p x, locate n p = some x ∧ ((∃ e, x.val = .expr e) ∨
      ∃ b, x.val = .float b ∧ (isNaN b = true ∨ b = 0x7FF0000000000000 ∨ b = 0xFFF0000000000000)) := by
  show _ ↔ ∃ p x, locate n p = some x ∧ NoJson x.val
  revert hg
  refine Node.rec
    (motive_1 := fun v => ∀ s an, GoMapsV v → (toJson J (.mk v s an) = none ↔ ∃ p x, locate (.mk v s an) p = some x ∧ NoJson x.val))
    (motive_2 := fun n => GoMaps n → (toJson J n = none ↔ ∃ p x, locate n p = some x ∧ NoJson x.val))
    (motive_3 := fun l => ∀ n ∈ l, GoMaps n → (toJson J n = none ↔ ∃ p x, locate n p = some x ∧ NoJson x.val))
    (motive_4 := fun m => ∀ e ∈ m, GoMaps e.2 → (toJson J e.2 = none ↔ ∃ p x, locate e.2 p = some x ∧ NoJson x.val))
    (motive_5 := fun e => GoMaps e.2 → (toJson J e.2 = none ↔ ∃ p x, locate e.2 p = some x ∧ NoJson x.val))
    ?_ ?_ ?_ ?_ ?_ ?_ ?_ ?_ ?_ ?_ ?_ ?_ ?_ ?_ ?_ ?_ n
  case refine_4 =>
    intro b s an hg
    have hI : infBits = 0x7FF0000000000000 := by decide
    have hN : floatNeg infBits = 0xFFF0000000000000 := by decide
    have : toJson J (.mk (.float b : Val E) s an) = jsonFloat J b := rfl
    rw [this]
    unfold jsonFloat
    rw [hN, hI]
    constructor
    · intro h
      refine ⟨[], _, rfl, .inr ⟨b, rfl, ?_⟩⟩
      split at h
      · rename_i hc
        simpa [Bool.or_eq_true, or_assoc] using hc
      · cases h
    · rintro ⟨p, x, h1, h2⟩
      cases p with
      | nil =>
        cases h1
        rcases h2 with ⟨e, h2⟩ | ⟨b', h2, h3⟩
        · cases h2
        · cases h2
          rw [if_pos (by simpa [Bool.or_eq_true, or_assoc] using h3)]
      | cons i p => simp [locate, child] at h1
  case refine_6 =>
    intro l ih s an hg
    simp only [GoMapsV, GoMapsL_iff] at hg
    rw [toJson_list, Option.map_eq_none_iff, items_fail]
    constructor
    · rintro ⟨y, hy, h⟩
      obtain ⟨p, x, h1, h2⟩ := (ih y hy (hg y hy)).1 h
      obtain ⟨i, hi⟩ := List.mem_iff_getElem?.1 hy
      exact ⟨.idx i :: p, x, by simpa [locate, child, hi] using h1, h2⟩
    · rintro ⟨p, x, h1, h2⟩
      cases p with
      | nil => simp [locate] at h1; rw [← h1] at h2; rcases h2 with ⟨e, h2⟩ | ⟨b', h2, h3⟩ <;> cases h2
      | cons i p =>
        cases i with
        | idx i =>
          simp only [locate, child, Node.val_mk] at h1
          rcases hi : l[i]? with _ | y
          · simp [hi] at h1
          · simp only [hi] at h1
            have hy := List.mem_of_getElem? hi
            exact ⟨y, hy, (ih y hy (hg y hy)).2 ⟨p, x, h1, h2⟩⟩
        | _ => simp [locate, child] at h1
  case refine_7 =>
    intro l ih s an hg
    simp only [GoMapsV, GoMapsM_iff] at hg
    rw [toJson_map, Option.map_eq_none_iff, members_fail]
    constructor
    · rintro ⟨y, hy, h⟩
      obtain ⟨p, x, h1, h2⟩ := (ih y hy (hg.2 y hy)).1 h
      exact ⟨.key y.1 :: p, x, by simpa [locate, child, mget_of_mem hg.1 hy] using h1, h2⟩
    · rintro ⟨p, x, h1, h2⟩
      cases p with
      | nil => simp [locate] at h1; rw [← h1] at h2; rcases h2 with ⟨e, h2⟩ | ⟨b', h2, h3⟩ <;> cases h2
      | cons i p =>
        cases i with
        | key i =>
          simp only [locate, child, Node.val_mk] at h1
          rcases hi : mget l i with _ | y
          · simp [hi] at h1
          · simp only [hi] at h1
            have hy := mget_some_mem hi
            exact ⟨_, hy, (ih _ hy (hg.2 _ hy)).2 ⟨p, x, h1, h2⟩⟩
        | _ => simp [locate, child] at h1
  case refine_8 =>
    intro e s an hg
    have : toJson J (.mk (.expr e) s an) = none := rfl
    rw [this]
    exact ⟨fun _ => ⟨[], _, rfl, .inl ⟨e, rfl⟩⟩, fun _ => rfl⟩
  case refine_9 =>
    intro n ih s an hg
    have : toJson J (.mk (.templ n) s an) = toJson J n := by simp only [toJson, normalize, normalizeV]
    rw [this, ih (by simpa [GoMapsV] using hg)]
    constructor
    · rintro ⟨p, x, h1, h2⟩
      exact ⟨.body :: p, x, by simpa [locate, child] using h1, h2⟩
    · rintro ⟨p, x, h1, h2⟩
      cases p with
      | nil => simp [locate] at h1; rw [← h1] at h2; rcases h2 with ⟨e, h2⟩ | ⟨b', h2, h3⟩ <;> cases h2
      | cons i p =>
        cases i with
        | body => exact ⟨p, x, by simpa [locate, child] using h1, h2⟩
        | _ => simp [locate, child] at h1
  case refine_11 => intro v s an ih hg; exact ih s an (by simpa [GoMaps] using hg)
  case refine_12 => intro a h; cases h
  case refine_13 =>
    intro x r h1 h2 a h
    rcases List.mem_cons.1 h with rfl | h
    · exact h1
    · exact h2 a h
  case refine_14 => intro a h; cases h
  case refine_15 =>
    intro x r h1 h2 a h
    rcases List.mem_cons.1 h with rfl | h
    · exact h1
    · exact h2 a h
  case refine_16 => intro k n ih; exact ih
  all_goals
    intros
    simp only [toJson, normalize, normalizeV, Option.bind_some, jsonText, reduceCtorEq, false_iff]
    rintro ⟨p, x, h1, h2⟩
    cases p with
    | nil => simp [locate] at h1; rw [← h1] at h2; rcases h2 with ⟨e, h2⟩ | ⟨b', h2, h3⟩ <;> cases h2
    | cons i p => simp [locate, child] at h1

/-- **C87**: the fields of an object are in strictly ascending order of their names, each with the text of its value. -/
theorem json_sorted (J : Nat → YText) (m : List (String × Node E)) (hm : MapOK m) (s : String) (a : Ann) (t : List Char)
    (h : toJson J (.mk (.map m) s a) = some t) :
    ∃ l : List (String × List Char), (l.map Prod.fst).Pairwise (· < ·) ∧ (∀ k w, (k, w) ∈ l ↔ ∃ n, (k, n) ∈ m ∧ toJson J n = some w) ∧
      t = '{' :: (commaJoin (l.map (fun e => jsonQuote e.1.toList ++ ':' :: e.2)) ++ ['}']) := by
  have hall : ∀ e ∈ m, ∃ t, toJson J e.2 = some t := by
    intro e he
    cases h1 : toJson J e.2 with
    | some t => exact ⟨t, rfl⟩
    | none =>
      rw [toJson_map, (members_fail J m).2 ⟨e, he, h1⟩] at h
      cases h
  obtain ⟨dm, em, h1, h2, h3, h4⟩ := json_members J m hall
  rw [toJson_map, h1, Option.bind_some, h2, Option.map_some] at h
  cases h
  have hperm : (sortedKeys em).Perm (mkeys em) := sortStr_perm _
  have hok : MapOK em := by unfold MapOK; rw [h3]; exact hm
  have hnd : (sortedKeys em).Nodup := hperm.nodup_iff.2 hok
  refine ⟨(sortedKeys em).map (fun k => (k, (mget em k).getD [])), ?_, ?_, ?_⟩
  · rw [List.map_map]
    have : (Prod.fst ∘ fun k => (k, (mget em k).getD [])) = (id : String → String) := rfl
    rw [this, List.map_id]
    exact sorted_strict (sortStr_sorted _) hnd
  · intro k w
    constructor
    · intro hkw
      obtain ⟨q, hq, he⟩ := List.mem_map.1 hkw
      cases he
      have hq := hperm.mem_iff.1 hq
      rw [h3] at hq
      obtain ⟨e, he, rfl⟩ := List.mem_map.1 hq
      obtain ⟨es, hes⟩ := hall e he
      refine ⟨e.2, he, ?_⟩
      rw [h4, mget_of_mem hm he]
      simp [hes]
    · rintro ⟨n, hn, hw⟩
      refine List.mem_map.2 ⟨k, hperm.mem_iff.2 (by rw [h3]; exact List.mem_map.2 ⟨_, hn, rfl⟩), ?_⟩
      rw [h4, mget_of_mem hm hn]
      simp [hw]
  · simp [jsonFields, List.map_map, Function.comp_def]

/-- **C87**: the text does not depend on the (random) order of the entries of a map. -/
theorem json_order (J : Nat → YText) (m m' : List (String × Node E)) (hm : MapOK m) (hp : m.Perm m') (s s' : String) (a a' : Ann) :
    toJson J (.mk (.map m) s a) = toJson J (.mk (.map m') s' a') := by
  have hm' : MapOK m' := (hp.map Prod.fst).nodup_iff.1 hm
  by_cases h : ∀ e ∈ m, ∃ t, toJson J e.2 = some t
  · obtain ⟨dm, em, h1, h2, h3, h4⟩ := json_members J m h
    obtain ⟨dm', em', h1', h2', h3', h4'⟩ := json_members J m' (fun e he => h e (hp.mem_iff.2 he))
    have hk : sortedKeys em = sortedKeys em' := by
      unfold sortedKeys
      rw [h3, h3']
      exact sortedKeys_perm hp
    have hg : ∀ k, mget m k = mget m' k := by
      intro k
      cases hx : mget m k with
      | none =>
        rw [mget_none_iff] at hx
        exact (mget_none_iff.2 (fun h => hx ((hp.map Prod.fst).mem_iff.2 h))).symm
      | some x => exact (mget_of_mem hm' (hp.mem_iff.1 (mget_some_mem hx))).symm
    have : jsonFields em = jsonFields em' := by
      unfold jsonFields
      rw [hk]
      have : ∀ k, mget em k = mget em' k := fun k => by rw [h4, h4', hg]
      simp only [this]
    rw [toJson_map, toJson_map, h1, h1', Option.bind_some, Option.bind_some, h2, h2', Option.map_some, Option.map_some, this]
  · have : ∃ e ∈ m, toJson J e.2 = none := by
      apply Classical.byContradiction
      intro hno
      apply h
      intro e he
      cases h1 : toJson J e.2 with
      | some t => exact ⟨t, rfl⟩
      | none => exact absurd ⟨e, he, h1⟩ hno
    have hf := (members_fail J m).2 this
    obtain ⟨e, he, h1⟩ := this
    rw [toJson_map, toJson_map, hf, (members_fail J m').2 ⟨e, hp.mem_iff.1 he, h1⟩]

/-! ### defects -/

/-- **C87** (defect): the character U+0085 is written as it is, and read as a space, because it is a line break in YAML. -/
theorem json_next_line_defect (J : Nat → YText) :
    toJson J (.mk (.str "a\u0085b") "" {} : Node Unit) = some "\"a\u0085b\"".toList ∧
    readEvents "\"a\u0085b\"".toList = some [.streamStart, .docStart, .scalar "" { value := "a b".toList, implicit := false }, .docEnd, .streamEnd] :=
  ⟨by simp only [toJson, normalize, normalizeV, Option.bind_some, jsonText]; decide +kernel, by decide +kernel⟩

/-- **C87** (defect): the character U+007F is written as it is, and rejected by the YAML reader. -/
theorem json_delete_defect (J : Nat → YText) :
    toJson J (.mk (.str "a\u007fb") "" {} : Node Unit) = some "\"a\u007fb\"".toList ∧ readEvents "\"a\u007fb\"".toList = none :=
  ⟨by simp only [toJson, normalize, normalizeV, Option.bind_some, jsonText]; decide +kernel, by decide +kernel⟩

/-- **C87** (defect): the output of several documents has no separators, and cannot be read. -/
theorem json_documents_defect :
    readEvents (printJson [toJson writeExampleF (.mk (.map []) "" {} : Node Unit), toJson writeExampleF (.mk (.map []) "" {} : Node Unit)]) = none := by
  decide +kernel

/-! ### examples -/

theorem json_example : (toJson writeExampleF writeExample).map String.ofList = some "{\"5\":null,\"a\":1.5,\"z\":[-12,\"no\",\"a: b\"]}" := by
  decide +kernel

/-- nested collections, empty collections, and escaped characters -/
theorem json_events_example : readEvents "[[],{},{\"a\\u003c\\n\":[true,{\"b\":\"\"}]},-1.5e-07]\n".toList =
    some [.streamStart, .docStart, .seqStart "", .seqStart "", .seqEnd, .mapStart "", .mapEnd, .mapStart "",
      .scalar "" { value := "a<\n".toList, implicit := false }, .seqStart "", .scalar "" { value := "true".toList }, .mapStart "",
      .scalar "" { value := "b".toList, implicit := false }, .scalar "" { value := [], implicit := false }, .mapEnd, .seqEnd, .mapEnd,
      .scalar "" { value := "-1.5e-07".toList }, .seqEnd, .docEnd, .streamEnd] := by
  decide +kernel

mutual
/-- a test for all values of a document -/
def everyN (f : Val E → Bool) : Node E → Bool
  | .mk v _ _ => everyV f v
termination_by structural n => n
def everyV (f : Val E → Bool) : Val E → Bool
  | .list l => f (.list l) && everyL f l
  | .map m => f (.map m) && everyM f m
  | .templ n => f (.templ n) && everyN f n
  | .nil => f .nil
  | .bool b => f (.bool b)
  | .int i => f (.int i)
  | .float b => f (.float b)
  | .str s => f (.str s)
  | .expr e => f (.expr e)
  | .lambda s => f (.lambda s)
termination_by structural n => n
def everyL (f : Val E → Bool) : List (Node E) → Bool
  | [] => true
  | n :: r => everyN f n && everyL f r
termination_by structural n => n
def everyM (f : Val E → Bool) : List (String × Node E) → Bool
  | [] => true
  | (_, n) :: r => everyN f n && everyM f r
termination_by structural n => n
end

theorem every_at {f : Val E → Bool} (p : List Ix) : ∀ {n x : Node E}, everyN f n = true → locate n p = some x → f x.val = true := by
  induction p with
  | nil =>
    intro n x h hx
    cases hx
    obtain ⟨v, s, a⟩ := n
    rw [everyN] at h
    cases v <;> simp_all [everyV]
  | cons i p ih =>
    intro n x h hx
    rw [locate] at hx
    split at hx
    · rename_i c hc
      refine ih ?_ hx
      obtain ⟨v, s, a⟩ := n
      rw [everyN] at h
      rw [Node.val_mk] at hc
      cases v <;> cases i <;> simp only [child, reduceCtorEq] at hc
      · rename_i l i
        rw [everyV, Bool.and_eq_true] at h
        have hl := h.2
        clear h
        have hm := List.mem_of_getElem? hc
        induction l with
        | nil => cases hm
        | cons n r ihl =>
          rw [everyL, Bool.and_eq_true] at hl
          rcases List.mem_cons.1 hm with rfl | hm'
          · exact hl.1
          · obtain ⟨j, hj⟩ := List.mem_iff_getElem?.1 hm'
            clear hc ihl
            have : ∀ r : List (Node E), everyL f r = true → c ∈ r → everyN f c = true := by
              intro r
              induction r with
              | nil => intro _ h; cases h
              | cons n r ih =>
                intro h1 h2
                rw [everyL, Bool.and_eq_true] at h1
                rcases List.mem_cons.1 h2 with rfl | h2
                · exact h1.1
                · exact ih h1.2 h2
            exact this r hl.2 hm'
      · rename_i m k
        rw [everyV, Bool.and_eq_true] at h
        have hl := h.2
        clear h
        induction m with
        | nil => cases hc
        | cons e r ihm =>
          obtain ⟨q, n⟩ := e
          rw [everyM, Bool.and_eq_true] at hl
          rw [mget] at hc
          split at hc
          · cases hc; exact hl.1
          · exact ihm hc hl.2
      · cases hc
        rw [everyV, Bool.and_eq_true] at h
        exact h.2
    · cases hx

/-- the hypotheses of `json_read` -/
theorem json_example_writable : JsonWritable writeExampleLib writeExampleF writeExample := by
  obtain ⟨h1, h2, h3, h4, h5⟩ := write_example_ok
  have safe : ∀ t : List Char, t.all (fun c => decide (c.toNat < 0x7F)) = true → ∀ c ∈ t, JsonSafeC c :=
    fun t h c hc => .inl (by simpa using List.all_eq_true.1 h c hc)
  have htx : everyN (fun v => match v with | .str s => s.toList.all (fun c => decide (c.toNat < 0x7F)) | _ => true) writeExample = true := by
    decide +kernel
  have hky : everyN (fun v => match v with
      | .map m => m.all (fun e => e.1.toList.all (fun c => decide (c.toNat < 0x7F)) && decide ((jsonQuote e.1.toList).length ≤ 1024))
      | _ => true) writeExample = true := by
    decide +kernel
  refine ⟨h1, h3, fun p x hx i hi => (h4 p x hx).1 i hi, ?_, ?_, ?_, h5⟩
  · intro p x h b hb
    rcases write_example_nodes p x h with ⟨m, h⟩ | ⟨l, h⟩ | h | ⟨s, h⟩ | h | h <;> rw [h] at hb <;> cases hb
    exact ⟨by decide, by decide, by decide, write_example_numbers⟩
  · intro p x h s hs
    have := every_at p htx h
    rw [hs] at this
    exact safe _ this
  · intro p x h m hm e he
    have := every_at p hky h
    rw [hm] at this
    have := List.all_eq_true.1 this e he
    rw [Bool.and_eq_true] at this
    exact ⟨safe _ this.1, of_decide_eq_true this.2⟩

end Spiff
