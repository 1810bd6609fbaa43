import Verif.Props.Sanitize
import Verif.Props.Equiv
import Verif.Props.Escape
import Verif.Props.Interp
import Verif.Props.Find
import Verif.Props.Tags
import Verif.Props.Merge
import Verif.Model.Yaml
import Verif.Model.Pipeline
import Verif.Spec.Pipeline
import Verif.Spec.Data
/-
C89: documents as they are read from a file.
-/
namespace Spiff
open Spec
variable {E S : Type}

/-- a value without children -/
def Scalar : Val E → Prop
  | .nil => True
  | .bool _ => True
  | .int _ => True
  | .float _ => True
  | .str _ => True
  | _ => False

/-- a document just read from a file: only data, no annotations, every map has at most one value per key -/
inductive Fresh (src : String) : Node E → Prop
  | leaf (v : Val E) (h : Scalar v) : Fresh src (.mk v src {})
  | list (l : List (Node E)) (h : ∀ n ∈ l, Fresh src n) : Fresh src (.mk (.list l) src {})
  | map (m : List (String × Node E)) (hm : MapOK m) (h : ∀ e ∈ m, Fresh src e.2) : Fresh src (.mk (.map m) src {})

/-- data in which every map has at most one value per key -/
inductive DataMaps : Data → Prop
  | nil : DataMaps .nil
  | bool (b) : DataMaps (.bool b)
  | num (k i) : DataMaps (.num k i)
  | float (b) : DataMaps (.float b)
  | float32 (b) : DataMaps (.float32 b)
  | str (s) : DataMaps (.str s)
  | time (t) : DataMaps (.time t)
  | seq (l) (h : ∀ d ∈ l, DataMaps d) : DataMaps (.seq l)
  | other (t) : DataMaps (.other t)
  | dict (m : List (Key × Data)) (hm : (m.map Prod.fst).Nodup) (h : ∀ e ∈ m, DataMaps e.2) : DataMaps (.dict m)

theorem sanitize_fresh (src : String) {d : Data} (h : DataMaps d) : ∀ n : Node E, sanitize src d = some n → Fresh src n := by
  induction h with
  | nil => intro n h; cases h; exact .leaf _ trivial
  | bool => intro n h; cases h; exact .leaf _ trivial
  | num => intro n h; cases h; exact .leaf _ trivial
  | float => intro n h; cases h; exact .leaf _ trivial
  | float32 => intro n h; cases h; exact .leaf _ trivial
  | str => intro n h; cases h; exact .leaf _ trivial
  | time => intro n h; cases h; exact .leaf _ trivial
  | seq l h ih =>
    intro n hn
    rw [sanitize, Option.map_eq_some_iff] at hn
    obtain ⟨r, hr, rfl⟩ := hn
    rw [sanitizeL_iff] at hr
    refine .list r (fun x hx => ?_)
    obtain ⟨i, hi⟩ := List.mem_iff_getElem?.1 hx
    have hlt : i < l.length := by rw [hr.1]; exact (List.getElem?_eq_some_iff.1 hi).1
    exact ih l[i] (List.getElem_mem hlt) x (hr.2 i l[i] x (List.getElem?_eq_getElem hlt) hi)
  | other => intro n h; cases h
  | dict m hm h ih =>
    intro n hn
    rw [sanitize, Option.map_eq_some_iff] at hn
    obtain ⟨r, hr, rfl⟩ := hn
    rw [sanitizeD_iff] at hr
    have hlen : m.length = r.length := by have := congrArg List.length hr.1; simpa using this
    refine .map r ?_ (fun x hx => ?_)
    · have := hr.1 ▸ hm
      rw [show (fun e : String × Node E => Key.str e.1) = Key.str ∘ Prod.fst from rfl, ← List.map_map] at this
      exact List.Nodup.of_map _ this
    · obtain ⟨i, hi⟩ := List.mem_iff_getElem?.1 hx
      have hlt : i < m.length := by rw [hlen]; exact (List.getElem?_eq_some_iff.1 hi).1
      exact ih m[i] (List.getElem_mem hlt) x.2 (hr.2 i m[i] x (List.getElem?_eq_getElem hlt) hi)

/-! ### the decoder -/

theorem text_maps (X : YLib) (e : YScalar) : DataMaps (resolveText X e).2 := by
  unfold resolveText
  split <;> constructor

theorem number_maps (X : YLib) (b : Bool) (e : YScalar) : DataMaps (resolveNumber X b e).2 := by
  unfold resolveNumber
  repeat' split
  all_goals first | exact text_maps X e | constructor

theorem word_maps (X : YLib) (e : YScalar) : DataMaps (resolveWord X e).2 := by
  unfold resolveWord
  split
  · constructor
  · exact text_maps X e

theorem interface_maps (X : YLib) (e : YScalar) : DataMaps (resolveInterface X e).2 := by
  unfold resolveInterface
  repeat' split
  all_goals first | exact text_maps X e | exact number_maps X _ e | exact word_maps X e | constructor

theorem value_maps (X : YLib) (e : YScalar) : DataMaps (resolveValue X e) := by
  unfold resolveValue
  split
  · constructor
  · exact interface_maps X e

theorem yres_ok {α β : Type} {x : YRes α} {f : α → YRes β} {b : β} : x.bind f = .ok b ↔ ∃ a, x = .ok a ∧ f a = .ok b := by
  cases x <;> simp [YRes.bind]

theorem kset_mem (m : List (Key × Data)) (k : Key) (v : Data) : ∀ e ∈ kset m k v, e ∈ m ∨ e = (k, v) := by
  induction m with
  | nil => intro e he; simp [kset] at he; exact .inr he
  | cons x r ih =>
    intro e he
    obtain ⟨k', v'⟩ := x
    rw [kset] at he
    split at he
    · rcases List.mem_cons.1 he with rfl | he
      · exact .inr rfl
      · exact .inl (by simp [he])
    · rcases List.mem_cons.1 he with rfl | he
      · exact .inl (by simp)
      · rcases ih e he with h | h
        · exact .inl (by simp [h])
        · exact .inr h

theorem kset_nodup (m : List (Key × Data)) (k : Key) (v : Data) (h : (m.map Prod.fst).Nodup) : ((kset m k v).map Prod.fst).Nodup := by
  induction m with
  | nil => simp [kset]
  | cons x r ih =>
    obtain ⟨k', v'⟩ := x
    rw [List.map_cons, List.nodup_cons] at h
    rw [kset]
    split
    · rename_i he
      subst he
      rw [List.map_cons, List.nodup_cons]
      exact h
    · rename_i he
      rw [List.map_cons, List.nodup_cons]
      refine ⟨fun hc => ?_, ih h.2⟩
      obtain ⟨e, he', hk⟩ := List.mem_map.1 hc
      rcases kset_mem r k v e he' with h1 | h1
      · exact h.1 (List.mem_map.2 ⟨e, h1, hk⟩)
      · rw [h1] at hk; exact he hk.symm

theorem decode_maps (X : YLib) : ∀ n,
    (∀ s r, yValue X n s = .ok r → DataMaps r.1) ∧
    (∀ acc s r, (∀ d ∈ acc, DataMaps d) → ySeq X n acc s = .ok r → DataMaps r.1) ∧
    (∀ acc s r, (acc.map Prod.fst).Nodup → (∀ e ∈ acc, DataMaps e.2) → yMap X n acc s = .ok r → DataMaps r.1) ∧
    (∀ a s r, yAlias X n a s = .ok r → DataMaps r.1) ∧
    (∀ s r, yParse X n s = .ok r → DataMaps r.1) := by
  intro n
  induction n with
  | zero =>
    refine ⟨fun s r h => ?_, fun acc s r _ h => ?_, fun acc s r _ _ h => ?_, fun a s r h => ?_, fun s r h => ?_⟩
    · rw [yValue] at h; cases h
    · rw [ySeq] at h; cases h
    · rw [yMap] at h; cases h
    · rw [yAlias] at h; cases h
    · rw [yParse] at h; cases h
  | succ n ih =>
    obtain ⟨i1, i2, i3, i4, i5⟩ := ih
    refine ⟨fun s r h => ?_, fun acc s r ha h => ?_, fun acc s r hk ha h => ?_, fun a s r h => ?_, fun s r h => ?_⟩
    · rw [yValue] at h
      split at h
      · simp only [yres_ok] at h
        obtain ⟨_, -, x, hx, h⟩ := h
        cases h
        exact i2 _ _ x (by simp) hx
      · simp only [yres_ok] at h
        obtain ⟨_, -, x, hx, h⟩ := h
        cases h
        exact i3 _ _ x (by simp) (by simp) hx
      · simp only [yres_ok] at h
        obtain ⟨_, -, h⟩ := h
        cases h
        exact interface_maps X _
      · exact i4 _ _ _ h
      · cases h
      · cases h; exact .nil
    · rw [ySeq] at h
      split at h
      · simp only [yres_ok] at h
        obtain ⟨_, -, h⟩ := h
        cases h
        exact .seq _ ha
      · simp only [yres_ok] at h
        obtain ⟨_, -, h⟩ := h
        cases h
        exact .seq _ ha
      · simp only [yres_ok] at h
        obtain ⟨x, hx, h⟩ := h
        refine i2 _ _ r (fun d hd => ?_) h
        rcases List.mem_append.1 hd with hd | hd
        · exact ha d hd
        · rw [List.mem_singleton.1 hd]; exact i1 _ _ hx
    · rw [yMap] at h
      split at h
      · simp only [yres_ok] at h
        obtain ⟨_, -, h⟩ := h
        cases h
        exact .dict _ hk ha
      · simp only [yres_ok] at h
        obtain ⟨_, -, h⟩ := h
        cases h
        exact .dict _ hk ha
      · simp only [yres_ok] at h
        obtain ⟨x, hx, y, hy, m, hm, h⟩ := h
        unfold assignKey at hm
        split at hm
        · cases hm
        · cases hm
          refine i3 _ _ r (kset_nodup _ _ _ hk) (fun e he => ?_) h
          rcases kset_mem _ _ _ e he with he | he
          · exact ha e he
          · rw [he]; exact i1 _ _ hy
    · rw [yAlias] at h
      split at h
      · cases h
      · simp only [yres_ok] at h
        obtain ⟨_, -, h⟩ := h
        exact i5 _ _ h
    · rw [yParse] at h
      split at h
      · simp only [yres_ok] at h
        obtain ⟨_, -, x, hx, h⟩ := h
        cases h
        exact i2 _ _ x (by simp) hx
      · simp only [yres_ok] at h
        obtain ⟨_, -, x, hx, h⟩ := h
        cases h
        exact i3 _ _ x (by simp) (by simp) hx
      · simp only [yres_ok] at h
        obtain ⟨_, -, h⟩ := h
        cases h
        exact value_maps X _
      · exact i4 _ _ _ h
      · cases h; exact .nil
      · cases h

theorem documents_maps (X : YLib) : ∀ n s ds, yDocuments X n s = .ok ds → ∀ d ∈ ds, DataMaps d := by
  intro n
  induction n with
  | zero => intro s ds h; rw [yDocuments] at h; cases h
  | succ n ih =>
    intro s ds h
    rw [yDocuments, yres_ok] at h
    obtain ⟨x, hx, h⟩ := h
    have hd : DataMaps x.1 := by
      unfold yDocument at hx
      split at hx
      · simp only [yres_ok] at hx
        obtain ⟨_, -, y, hy, hx⟩ := hx
        split at hx
        · rw [yres_ok] at hx
          obtain ⟨_, -, hx⟩ := hx
          cases hx
          exact (decode_maps X n).2.2.2.2 _ y hy
        · cases hx
      · cases hx
    split at h
    · cases h
      intro d h
      rw [List.mem_singleton.1 h]
      exact hd
    · rw [yres_ok] at h
      obtain ⟨l, hl, h⟩ := h
      cases h
      intro d h
      rcases List.mem_cons.1 h with rfl | h
      · exact hd
      · exact ih _ _ hl d h

theorem decodeBytes_maps (X : YLib) (fuel : Nat) (b : Bytes) (ds : List Data) (h : decodeBytes X fuel b = some ds) : ∀ d ∈ ds, DataMaps d := by
  unfold decodeBytes at h
  obtain ⟨t, -, h⟩ := Option.bind_eq_some_iff.1 h
  obtain ⟨es, -, h⟩ := Option.bind_eq_some_iff.1 h
  split at h
  · rename_i ds' hd
    cases h
    unfold yDecode at hd
    split at hd
    · exact documents_maps X _ _ _ hd
    · cases hd
  · cases h

theorem sanitizeL_fresh (src : String) {ds : List Data} (h : ∀ d ∈ ds, DataMaps d) (ns : List (Node E)) (hs : sanitizeL src ds = some ns) :
    ∀ n ∈ ns, Fresh src n := by
  rw [sanitizeL_iff] at hs
  intro n hn
  obtain ⟨i, hi⟩ := List.mem_iff_getElem?.1 hn
  have hlt : i < ds.length := by rw [hs.1]; exact (List.getElem?_eq_some_iff.1 hi).1
  exact sanitize_fresh src (h _ (List.getElem_mem hlt)) n (hs.2 i ds[i] n (List.getElem?_eq_getElem hlt) hi)

/-! ### fresh documents -/

theorem fresh_root {src : String} {n : Node E} (h : Fresh src n) : n.src = src ∧ n.ann = {} := by
  cases h <;> exact ⟨rfl, rfl⟩

theorem fresh_child {src : String} {n x : Node E} (h : Fresh src n) (i : Ix) (hx : child n.val i = some x) : Fresh src x := by
  cases h with
  | leaf v hv => cases v <;> simp only [Scalar] at hv <;> cases i <;> simp [child] at hx
  | list l hl =>
    cases i <;> simp only [Node.val_mk, child] at hx <;> try cases hx
    exact hl x (List.mem_iff_getElem?.2 ⟨_, hx⟩)
  | map m hm hl =>
    cases i <;> simp only [Node.val_mk, child] at hx <;> try cases hx
    exact hl _ (mget_some_mem hx)

theorem fresh_locate {src : String} (p : List Ix) : ∀ {n x : Node E}, Fresh src n → locate n p = some x → Fresh src x := by
  induction p with
  | nil => intro n x h hx; cases hx; exact h
  | cons i p ih =>
    intro n x h hx
    rw [locate] at hx
    split at hx
    · rename_i c hc
      exact ih (fresh_child h i hc) hx
    · cases hx

theorem fresh_data {src : String} {n : Node E} (h : Fresh src n) : OnlyData n := by
  intro p x hx
  have := fresh_locate p h hx
  cases this with
  | leaf v hv => cases v <;> simp_all [Scalar]
  | list => simp
  | map => simp

theorem fresh_maps {src : String} {n : Node E} (h : Fresh src n) : GoMaps n := by
  induction h with
  | leaf v hv => cases v <;> simp_all [Scalar, GoMaps, GoMapsV]
  | list l _ ih => rw [GoMaps, GoMapsV, GoMapsL_iff]; exact ih
  | map m hm _ ih => rw [GoMaps, GoMapsV, GoMapsM_iff]; exact ⟨hm, ih⟩

/-! ### inert documents -/

theorem inert_child {n x : Node E} (h : Inert n) (i : Ix) (hx : child n.val i = some x) : Inert x := by
  have hl : ∀ p, locate n (i :: p) = locate x p := by intro p; rw [locate, hx]
  exact ⟨fun p y s hy hs => h.texts (i :: p) y s (by rw [hl]; exact hy) hs,
    fun p k y hy => h.names (i :: p) k y (by rw [List.cons_append, hl]; exact hy),
    fun p y b hy hb => h.floats (i :: p) y b (by rw [hl]; exact hy) hb⟩

theorem noOpen_wrap {s : List Char} (h : NoOpen s) : ∀ b, s ≠ Props.wrap b := by
  rintro b rfl
  unfold Props.wrap at h
  rw [List.append_assoc, show "((".toList = ['(', '('] from rfl] at h
  exact h

/-- texts without `((` mean nothing to the processing -/
theorem noOpen_plain (q : List Char → List Char) (hq : ∀ l, q l ≠ []) (ip : Bool) {s : List Char} (h : NoOpen s) :
    embeddedDynaml q ip s = none ∧ unescapeStr q ip s = s := by
  have hb : dynamlBody s = none := by
    cases hb : dynamlBody s with
    | none => rfl
    | some b => exact absurd (Props.dynamlBody_some hb) (noOpen_wrap h b)
  cases ip with
  | false => exact Props.plain_string_untouched q s (noOpen_wrap h)
  | true =>
    unfold embeddedDynaml unescapeStr
    rw [hb]
    simp only [interpolation_plain q hq _ s h, Bool.not_true, Bool.false_eq_true, if_false, if_true, and_self]

theorem unescapeKey_plain {k : String} (h : ¬ SpecialName k) : unescapeKey k = k := by
  unfold unescapeKey
  rw [if_neg, if_neg]
  · rw [hasPrefix_iff]
    rintro ⟨r, hr⟩
    exact h (.inl ⟨_, by rw [← hr]; rfl⟩)
  · rw [hasPrefix_iff]
    rintro ⟨r, hr⟩
    exact h (.inl ⟨_, by rw [← hr]; rfl⟩)

theorem name_plain (L : Lang E) (hL : ∀ k, L.requireTemplate k = true → ∃ r, k.toList = '<' :: '<' :: r) {k : String} (h : ¬ SpecialName k) : PlainKey L k := by
  refine ⟨?_, ?_, ?_, ?_⟩
  · rintro rfl; exact h (.inl ⟨[], rfl⟩)
  · rintro rfl; exact h (.inl ⟨_, rfl⟩)
  · unfold keyTag
    split
    · rename_i p s hs
      rw [splitColon_some] at hs
      split
      · rename_i hp
        refine absurd (.inr ⟨s, ?_⟩) h
        rw [hs.2.2, hp]
        rfl
      · rfl
    · rfl
  · cases hr : L.requireTemplate k with
    | false => rfl
    | true => exact absurd (.inl (hL k hr)) h

theorem inert_plain (L : Lang E) (hq : ∀ l, L.quote l ≠ []) (hL : ∀ k, L.requireTemplate k = true → ∃ r, k.toList = '<' :: '<' :: r)
    {src : String} {n : Node E} (h : Fresh src n) (hi : Inert n) : Plain L n := by
  induction h with
  | leaf v hv =>
    cases v <;> simp only [Scalar] at hv
    · simp only [Plain, PlainV]; rfl
    · simp only [Plain, PlainV]; rfl
    · simp only [Plain, PlainV]; rfl
    · rename_i b
      obtain ⟨h1, h2⟩ := hi.floats [] _ b rfl rfl
      simp only [Plain, PlainV]
      exact ⟨rfl, h1, fun h => absurd h h2⟩
    · rename_i s
      simp only [Plain, PlainV]
      exact ⟨rfl, (noOpen_plain L.quote hq _ (hi.texts [] _ s rfl rfl)).1⟩
  | list l hl ih =>
    simp only [Plain, PlainV]
    refine ⟨.inl rfl, PlainL_iff.2 (fun n hn => ih n hn ?_)⟩
    obtain ⟨i, hi'⟩ := List.mem_iff_getElem?.1 hn
    exact inert_child hi (.idx i) hi'
  | map m hm hl ih =>
    simp only [Plain, PlainV]
    refine ⟨rfl, hm, PlainM_iff.2 (fun e he => ?_)⟩
    have hg : mget m e.1 = some e.2 := mget_of_mem hm he
    exact ⟨name_plain L hL (hi.names [] e.1 e.2 (by rw [List.nil_append, locate]; simp only [Node.val_mk, child, hg]; rfl)),
      ih e he (inert_child hi (.key e.1) hg)⟩

/-- nothing is unescaped -/
theorem inert_unescape (q : List Char → List Char) (hq : ∀ l, q l ≠ []) (ip : Bool) {src : String} {n : Node E} (h : Fresh src n) (hi : Inert n) :
    unescapeChild q ip n = n ∧ unescapeDoc q ip n = n := by
  induction h with
  | leaf v hv =>
    cases v <;> simp only [Scalar] at hv
    · exact ⟨rfl, rfl⟩
    · exact ⟨rfl, rfl⟩
    · exact ⟨rfl, rfl⟩
    · exact ⟨rfl, rfl⟩
    · rename_i s
      refine ⟨?_, rfl⟩
      rw [unescapeChild]
      have : unescapeS q ip s = s := by
        unfold unescapeS
        rw [(noOpen_plain q hq ip (hi.texts [] _ s rfl rfl)).2, String.ofList_toList]
      simp only [this, if_true]
  | list l hl ih =>
    have : unescapeList q ip l = l := by
      have hm : ∀ n ∈ l, unescapeChild q ip n = n := by
        intro n hn
        obtain ⟨i, hi'⟩ := List.mem_iff_getElem?.1 hn
        exact (ih n hn (inert_child hi (.idx i) hi')).1
      clear ih hi hl
      induction l with
      | nil => rfl
      | cons n r ih => rw [unescapeList, hm n (by simp), ih (fun n h => hm n (by simp [h]))]
    exact ⟨by rw [unescapeChild, unescapeVal, this]; all_goals simp, by rw [unescapeDoc, unescapeVal, this]⟩
  | map m hm hl ih =>
    have hk : ∀ e ∈ m, unescapeKey e.1 = e.1 ∧ unescapeChild q ip e.2 = e.2 := by
      intro e he
      have hg : mget m e.1 = some e.2 := mget_of_mem hm he
      exact ⟨unescapeKey_plain (hi.names [] e.1 e.2 (by rw [List.nil_append, locate]; simp only [Node.val_mk, child, hg]; rfl)),
        (ih e he (inert_child hi (.key e.1) hg)).1⟩
    have : unescapeMap q ip m = m := by
      clear ih hi hl hm
      induction m with
      | nil => rfl
      | cons e r ih =>
        obtain ⟨k, n⟩ := e
        rw [unescapeMap, (hk (k, n) (by simp)).2, ih (fun e h => hk e (by simp [h]))]
    have hany : m.any (fun e => decide (unescapeKey e.1 ≠ e.1)) = false := by
      rw [List.any_eq_false]
      intro e he
      simp [(hk e he).1]
    refine ⟨?_, by rw [unescapeDoc, unescapeVal, this]⟩
    rw [unescapeChild]
    simp only [hany, Bool.false_eq_true, if_false, this]

end Spiff
