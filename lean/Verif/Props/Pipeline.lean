import Verif.Props.Fresh
import Verif.Props.YamlMarshal
import Verif.Props.YamlReadable
import Verif.Props.YamlBytes
import Verif.Props.YamlRead
import Verif.Props.Unresolved
import Verif.Props.Command2
import Verif.Props.Command4
import Verif.Props.JsonMore
import Verif.Lemmas.Reorder9
/-
C89: complete runs on files without expressions.
-/
namespace Spiff
open Spec
variable {E S : Type}

/-! ### the output does not depend on sources and the order of fields -/

mutual
/-- without sources and annotations -/
def strip : Node E → Node E
  | .mk v _ _ => .mk (stripV v) "" {}
termination_by structural n => n
def stripV : Val E → Val E
  | .list l => .list (stripL l)
  | .map m => .map (stripM m)
  | .templ n => .templ (strip n)
  | .nil => .nil
  | .bool b => .bool b
  | .int i => .int i
  | .float b => .float b
  | .str s => .str s
  | .expr e => .expr e
  | .lambda s => .lambda s
termination_by structural n => n
def stripL : List (Node E) → List (Node E)
  | [] => []
  | n :: r => strip n :: stripL r
termination_by structural n => n
def stripM : List (String × Node E) → List (String × Node E)
  | [] => []
  | (k, n) :: r => (k, strip n) :: stripM r
termination_by structural n => n
end

theorem stripL_eq (l : List (Node E)) : stripL l = l.map strip := by
  induction l with
  | nil => rfl
  | cons a r ih => simp [stripL, ih]

theorem stripM_eq (m : List (String × Node E)) : stripM m = m.map (fun e => (e.1, strip e.2)) := by
  induction m with
  | nil => rfl
  | cons a r ih => obtain ⟨k, n⟩ := a; simp [stripM, ih]

theorem strip_val (n : Node E) : (strip n).val = stripV n.val := by obtain ⟨v, s, a⟩ := n; rfl

theorem encode_strip (X : YLib) (F : Nat → YText) (n : Node E) : encode X F (strip n) = encode X F n := by
  refine Node.rec (motive_1 := fun v => encodeV X F (stripV v) = encodeV X F v) (motive_2 := fun n => encode X F (strip n) = encode X F n)
    (motive_3 := fun l => encodeL X F (stripL l) = encodeL X F l) (motive_4 := fun m => encodeM X F (stripM m) = encodeM X F m)
    (motive_5 := fun e => encode X F (strip e.2) = encode X F e.2) ?_ ?_ ?_ ?_ ?_ ?_ ?_ ?_ ?_ ?_ ?_ ?_ ?_ ?_ ?_ ?_ n
  · rfl
  · intro b; rfl
  · intro b; rfl
  · intro b; rfl
  · intro b; rfl
  · intro l h; simp only [stripV, encodeV, h]
  · intro l h; simp only [stripV, encodeV, h]
  · intro b; rfl
  · intro n h; simp only [stripV, encodeV, h]
  · intro b; rfl
  · intro v s a h; exact h
  · rfl
  · intro n r h h'; simp only [stripL, encodeL, h, h']
  · rfl
  · rintro ⟨k, n⟩ r h h'; simp only [stripM, encodeM, h, h']
  · intro k n h; exact h

theorem child_strip (v : Val E) (i : Ix) : child (stripV v) i = (child v i).map strip := by
  cases v <;> cases i <;> simp only [stripV, child, Option.map_none, Option.map_some]
  · rw [stripL_eq, List.getElem?_map]
  · rw [stripM_eq]; exact mget_map_snd (fun _ n => strip n) _ _

theorem locate_strip (p : List Ix) : ∀ n : Node E, locate (strip n) p = (locate n p).map strip := by
  induction p with
  | nil => intro n; rfl
  | cons i p ih =>
    intro n
    rw [locate, locate, strip_val, child_strip]
    cases child n.val i with
    | none => rfl
    | some c => exact ih c

theorem strip_fresh {src : String} {n : Node E} (h : Fresh src n) : Fresh "" (strip n) := by
  induction h with
  | leaf v hv =>
    have : stripV v = v := by cases v <;> simp_all [Scalar, stripV]
    rw [strip, this]
    exact .leaf v hv
  | list l _ ih =>
    rw [strip, stripV, stripL_eq]
    refine .list _ (fun n hn => ?_)
    obtain ⟨m, hm, rfl⟩ := List.mem_map.1 hn
    exact ih m hm
  | map m hm _ ih =>
    rw [strip, stripV, stripM_eq]
    refine .map _ ?_ (fun e he => ?_)
    · unfold MapOK mkeys at hm ⊢
      rw [List.map_map]
      exact hm
    · obtain ⟨x, hx, rfl⟩ := List.mem_map.1 he
      exact ih x hx

theorem floatEq_nonzero {a b : Nat} (ha : a % 2^63 ≠ 0) (h : floatEq a b = true) : a = b := by
  simp only [floatEq, Bool.and_eq_true, Bool.or_eq_true, beq_iff_eq] at h
  rcases h.2 with h | h
  · exact h
  · exact absurd h.1 ha

theorem both_left {α : Type} {H : α → α → Prop} {x y : Option α} {b : α} (h : Both H x y) (hy : y = some b) : ∃ a, x = some a ∧ H a b := by
  subst hy
  cases x with
  | none => exact absurd h (by simp [Both])
  | some a => exact ⟨a, rfl, h⟩

theorem content_inert {n n' : Node E} (h : SameContent n n') (hi : Inert n) : Inert n' := by
  refine ⟨fun p y s hy hs => ?_, fun p k y hy => ?_, fun p y b hy hb => ?_⟩
  · obtain ⟨x, hx, hk⟩ := both_left (h p) hy
    rw [hs] at hk
    cases hv : x.val <;> rw [hv] at hk <;> simp only [SameKind] at hk
    subst hk
    exact hi.texts p x _ hx hv
  · obtain ⟨x, hx, hk⟩ := both_left (h _) hy
    exact hi.names p k x hx
  · obtain ⟨x, hx, hk⟩ := both_left (h p) hy
    rw [hb] at hk
    cases hv : x.val <;> rw [hv] at hk <;> simp only [SameKind] at hk
    obtain ⟨h1, h2⟩ := hi.floats p x _ hx hv
    rw [← floatEq_nonzero h2 hk]
    exact ⟨h1, h2⟩

/-- documents with the same content are written in the same way -/
theorem content_encode (X : YLib) (F : Nat → YText) {src src' : String} {n n' : Node E} (h : SameContent n n') (hf : Fresh src n) (hf' : Fresh src' n')
    (hi : Inert n) : encode X F n = encode X F n' := by
  rw [← encode_strip, ← encode_strip X F n']
  have hs := strip_fresh hf
  have hs' := strip_fresh hf'
  refine encode_same X F _ _ ⟨fun p => ?_, fresh_maps hs, fresh_maps hs'⟩
  rw [locate_strip, locate_strip]
  have hp := h p
  cases hx : locate n p with
  | none =>
    cases hy : locate n' p with
    | none => trivial
    | some y => rw [hx, hy] at hp; exact absurd hp (by simp [Both])
  | some x =>
    cases hy : locate n' p with
    | none => rw [hx, hy] at hp; exact absurd hp (by simp [Both])
    | some y =>
      rw [hx, hy] at hp
      simp only [Option.map_some, Both] at hp ⊢
      refine ⟨?_, by obtain ⟨_, _, _⟩ := x; obtain ⟨_, _, _⟩ := y; rfl, by obtain ⟨_, _, _⟩ := x; obtain ⟨_, _, _⟩ := y; rfl⟩
      rw [strip_val, strip_val]
      have hd := fresh_data hf p x hx
      have hfl := hi.floats p x
      cases hv : x.val <;> cases hv' : y.val <;> rw [hv, hv'] at hp <;> simp only [SameKind] at hp <;>
        first | (subst hp; simp [stripV, SameLeaf]; done) | (simp [stripV, SameLeaf]; done) | skip
      rw [floatEq_nonzero (hfl _ hx hv).2 hp]
      simp [stripV, SameLeaf]

/-! ### texts and bytes -/

theorem utf8Out_eq (t : YText) : utf8Out t = encodedUtf8 t := by
  unfold utf8Out encodedUtf8
  congr 1
  exact List.flatMap_congr (fun c _ => buffer_utf8 c)

theorem encoded_append (a b : YText) : encodedUtf8 (a ++ b) = encodedUtf8 a ++ encodedUtf8 b := by
  simp [encodedUtf8]

theorem plain_utf8 {t : YText} (h : PlainChars t) : (∀ c ∈ t, YamlC c) ∧ ∀ r, t ≠ '\uFEFF' :: r := by
  have hc : ∀ c ∈ t, c = '\n' ∨ (0x20 ≤ c.toNat ∧ c.toNat ≤ 0x7E) := fun c hc => by
    rcases (isPlainC_iff c).1 (h.all c hc) with rfl | ⟨h1, h2⟩
    · exact .inl rfl
    · exact .inr (by omega)
  refine ⟨fun c hm => ?_, ?_⟩
  · rcases hc c hm with h | h
    · exact .inr (.inl h)
    · exact .inr (.inr (.inr (.inl h)))
  · rintro r rfl
    have := hc _ (List.mem_cons_self ..)
    revert this
    decide

theorem read_printed {t : YText} (h : PlainChars t) : readText [utf8Out t] = some t := by
  refine read_encoded _ t ?_ (plain_utf8 h).1 (plain_utf8 h).2
  rw [List.flatten_cons, List.flatten_nil, List.append_nil, utf8Out_eq]

theorem blank_bytes {t : YText} (h : PlainChars t) : blankSource (utf8Out t) = t.all isTrimmedC := by
  unfold utf8Out blankSource
  induction t with
  | nil => rfl
  | cons c t ih =>
    have hc := (isPlainC_iff c).1 (h.all c (List.mem_cons_self ..))
    have h' : PlainChars t := ⟨fun d hd => h.all d (List.mem_cons_of_mem _ hd)⟩
    have hs : c.toNat ≤ 0x7E := by
      rcases hc with rfl | ⟨h1, h2⟩
      · decide
      · omega
    rw [List.flatMap_cons, List.map_append, List.all_append, ih h', List.all_cons]
    congr 1
    unfold bufferBytes
    rw [if_pos (by omega)]
    have hn : ∀ (n : Nat) (d : Char), n < 128 → d.toNat = n → (UInt8.ofNat c.toNat = UInt8.ofNat n ↔ c = d) := by
      intro n d hn hd
      constructor
      · intro he
        apply Char.toNat_inj.1
        have := congrArg UInt8.toNat he
        rw [UInt8.toNat_ofNat', UInt8.toNat_ofNat'] at this
        omega
      · rintro rfl; rw [hd]
    have e1 : (UInt8.ofNat c.toNat = 32) = (c = ' ') := propext (hn 32 ' ' (by decide) rfl)
    have e2 : (UInt8.ofNat c.toNat = 9) = (c = '\t') := propext (hn 9 '\t' (by decide) rfl)
    have e3 : (UInt8.ofNat c.toNat = 10) = (c = '\n') := propext (hn 10 '\n' (by decide) rfl)
    have e4 : (UInt8.ofNat c.toNat = 13) = (c = '\r') := propext (hn 13 '\r' (by decide) rfl)
    simp only [List.map_cons, List.map_nil, List.all_cons, List.all_nil, Bool.and_true, e1, e2, e3, e4, isTrimmedC]

theorem sanitizeAll_eq (src : String) (ds : List Data) : sanitizeAll (E := E) src ds = sanitizeL src ds := by
  induction ds with
  | nil => rfl
  | cons d r ih => rw [sanitizeAll, sanitizeL, ih]

/-- what is read for the output -/
theorem printed_data (X : YLib) {F : Nat → YText} (hF : ∀ b, F b ≠ [] ∧ '\n' ∉ F b) (docs : List (Node E)) (hne : docs ≠ [])
    (hd : ∀ n ∈ docs, Writable X F n) (texts : List (Option YText)) (h : List.Forall₂ (PrintedAs X F) docs texts) :
    ∃ N ds, blankSource (utf8Out (printDocuments texts)) = false ∧ (∀ fuel, N ≤ fuel → decodeBytes X fuel (utf8Out (printDocuments texts)) = some ds) ∧
      ∀ src, ∃ ns : List (Node E), sanitizeL src ds = some ns ∧ List.Forall₂ SameContent docs ns ∧ ∀ n ∈ ns, Fresh src n := by
  obtain ⟨ess, ts, ds, ns, h1, h2, h3, h4, h5, h6, h7, h8, h9, h10⟩ := printed_ok X hF "" docs texts h hd
  have hess : ess ≠ [] := by rintro rfl; exact hne (List.length_eq_zero_iff.1 h3.symm)
  have hr := stream_text_roundtrip ess hess h2
  have hp : PlainChars (printDocuments texts) := by
    have := printed_plain ess h2 (decide (ess.length > 1))
    unfold printDocuments
    rw [h1, List.length_map, List.flatMap_map]
    exact this
  rw [← h1] at hr
  obtain ⟨N, hN⟩ := read_documents X ts (by rintro rfl; exact hne (List.length_eq_zero_iff.1 h5.symm)) h6
  have hnb : (printDocuments texts).all isTrimmedC = false := by
    by_contra hc
    exact blank_not_read (by simpa using hc) hr hess
  have hdec : ∀ fuel, N ≤ fuel → yDecode X fuel (documentEvents ess) = .ok ds := by
    intro f hf
    simp only [documentEvents, h4, hN f hf, h7]
  have hb : ∀ fuel, N ≤ fuel → decodeBytes X fuel (utf8Out (printDocuments texts)) = some ds := by
    intro f hf
    unfold decodeBytes
    rw [read_printed hp, Option.bind_some, hr, Option.bind_some, hdec f hf]
  refine ⟨N, ds, by rw [blank_bytes hp]; exact hnb, hb, fun src => ?_⟩
  obtain ⟨ns', ⟨N', hN'⟩, hc, -⟩ := print_read X hF src docs hne hd texts h
  have := hN' (max N N') (Nat.le_max_right ..)
  unfold parseDocuments at this
  rw [hnb, if_neg Bool.false_ne_true, hr] at this
  simp only [hdec _ (Nat.le_max_left N N'), YRes.bind] at this
  cases hs : sanitizeL (E := E) src ds with
  | none => rw [hs] at this; cases this
  | some ms =>
    rw [hs] at this
    cases this
    exact ⟨ns', rfl, hc, sanitizeL_fresh src (decodeBytes_maps X N _ ds (hb N (Nat.le_refl _))) ns' hs⟩

/-! ### the processing -/

theorem flow_inert [DecidableEq E] (L : Lang E) (hq : ∀ l, L.quote l ≠ []) (hL : ∀ k, L.requireTemplate k = true → ∃ r, k.toList = '<' :: '<' :: r)
    {src : String} {n : Node E} (h : Fresh src n) (hi : Inert n) (envOf : S → Env E) (fuel : Nat) (hf : depth n < fuel) (passes : Nat) (s : S) :
    flowBytes L fuel (passes + 1) envOf s n [] = (s, n, none) := by
  unfold flowBytes
  rw [plain_succeeds L n (inert_plain L hq hL h hi) _ rfl rfl rfl fuel hf true passes]

theorem cleanup_fresh {src : String} {n : Node E} (h : Fresh src n) : cleanup discardTemporary () n = n := by
  have hd : ∀ n : Node E, Fresh src n → discardTemporary () n.ann = some (n.ann, ()) := by
    intro n h
    rw [(fresh_root h).2]
    rfl
  have hr : ∀ n : Node E, n.reann n.ann = n := by intro n; obtain ⟨v, s, a⟩ := n; rfl
  induction h with
  | leaf v hv => cases v <;> simp only [Scalar] at hv <;> rfl
  | list l hl ih =>
    rw [cleanup, cleanupVal]
    congr 2
    induction l with
    | nil => rfl
    | cons a r ih' =>
      rw [cleanupList, hd a (hl a (by simp))]
      simp only
      rw [ih a (by simp), hr, ih' (fun n h => hl n (by simp [h])) (fun n h => ih n (by simp [h]))]
  | map m hm hl ih =>
    rw [cleanup, cleanupVal]
    congr 2
    clear hm
    induction m with
    | nil => rfl
    | cons a r ih' =>
      obtain ⟨k, a⟩ := a
      rw [cleanupMap, hd a (hl (k, a) (by simp))]
      simp only
      rw [ih (k, a) (by simp), hr, ih' (fun n h => hl n (by simp [h])) (fun n h => ih n (by simp [h]))]

/-- the text printed for a document -/
def textOf (X : YLib) (F : Nat → YText) (n : Node E) : Option YText := if n.val.isNil then none else marshal X F n

theorem one_inert [DecidableEq E] (X : YLib) (F J : Nat → YText) (L : Lang E) (hq : ∀ l, L.quote l ≠ [])
    (hL : ∀ k, L.requireTemplate k = true → ∃ r, k.toList = '<' :: '<' :: r) (C : CmdLib E S) (envOf : S → Env E) (fuel passes : Nat)
    (w : Surroundings) (f : String) (ft : Features) {src : String} {n : Node E} (h : Fresh src n) (hi : Inert n) (hf : depth n < fuel)
    (ht : n.val.isNil = true ∨ ∃ t, marshal X F n = some t) (s : S) (fs : FileSys) :
    ∃ s', oneDoc (textLib X F J L fuel (passes + 1) C envOf) w { template := f } ft [] s fs n = (s', fs, .ok [(textOf X F n).map utf8Out]) := by
  unfold oneDoc
  by_cases hn : n.val.isNil = true
  · rw [if_pos hn]
    exact ⟨s, by simp [textOf, hn]⟩
  · rw [if_neg hn]
    obtain ⟨t, ht⟩ := ht.resolve_left hn
    have ha : applyDoc (textLib X F J L fuel (passes + 1) C envOf) (ft.enabled "interpolation") {} [] s n = (C.push s n, n, none) := by
      unfold applyDoc
      have : (textLib X F J L fuel (passes + 1) C envOf).flow s n [] = (s, n, none) := flow_inert L hq hL h hi envOf fuel hf passes s
      rw [this]
      simp only [Bool.false_eq_true, if_false, cleanup_fresh h]
      rw [show (textLib X F J L fuel (passes + 1) C envOf).quote = L.quote from rfl, (inert_unescape L.quote hq _ h hi).2]
      rfl
    have hflow : flowedDoc (textLib X F J L fuel (passes + 1) C envOf) (ft.enabled "interpolation") {} [] s n = (C.push s n, .ok (some n)) := by
      unfold flowedDoc
      rw [ha]
      simp only [Option.isSome_none, Bool.and_false, Bool.false_eq_true, if_false, (fresh_root h).2]
    rw [hflow]
    refine ⟨C.push s n, ?_⟩
    simp only [takePath, if_true, writeState, finishDoc, evaluateExpr, selectFields, Except.bind, renderDoc, renderText, Bool.false_eq_true, if_false]
    rw [show (textLib X F J L fuel (passes + 1) C envOf).yaml n = (marshal X F n).map utf8Out from rfl, ht, textOf, if_neg hn, ht]
    rfl

theorem all_inert [DecidableEq E] (X : YLib) (F J : Nat → YText) (L : Lang E) (hq : ∀ l, L.quote l ≠ [])
    (hL : ∀ k, L.requireTemplate k = true → ∃ r, k.toList = '<' :: '<' :: r) (C : CmdLib E S) (envOf : S → Env E) (fuel passes : Nat)
    (w : Surroundings) (f : String) (ft : Features) {src : String} (fs : FileSys) (docs : List (Node E))
    (h : ∀ n ∈ docs, Fresh src n ∧ Inert n ∧ depth n < fuel ∧ (n.val.isNil = true ∨ ∃ t, marshal X F n = some t)) : ∀ s : S,
    allDocs (textLib X F J L fuel (passes + 1) C envOf) w { template := f } ft [] s fs docs =
      (fs, .ok (docs.map (fun n => (textOf X F n).map utf8Out))) := by
  induction docs with
  | nil => intro s; rfl
  | cons n r ih =>
    intro s
    obtain ⟨h1, h2, h3, h4⟩ := h n (by simp)
    obtain ⟨s', hs⟩ := one_inert X F J L hq hL C envOf fuel passes w f ft h1 h2 h3 h4 s fs
    rw [allDocs, hs]
    simp only
    rw [ih (fun n hn => h n (by simp [hn])) s']
    rfl

theorem print_bytes (texts : List (Option YText)) : printAll false (texts.map (·.map utf8Out)) = utf8Out (printDocuments texts) := by
  have hf : ∀ l : List (YText), utf8Out l.flatten = (l.map utf8Out).flatten := by
    intro l
    induction l with
    | nil => rfl
    | cons a r ih => rw [List.flatten_cons, List.map_cons, List.flatten_cons, ← ih]; simp [utf8Out]
  have he : ∀ t : YText, (utf8Out t).isEmpty = t.isEmpty := by
    intro t
    cases t with
    | nil => rfl
    | cons c r =>
      rw [utf8Out_eq]
      obtain ⟨o, x, hx, -⟩ := utf8_shape c
      simp [encodedUtf8, List.flatMap_cons, hx]
  unfold printAll printDocuments
  rw [List.length_map, List.flatMap_map, List.flatMap_def, List.flatMap_def, hf, List.map_map]
  congr 1
  refine List.map_congr_left (fun t _ => ?_)
  generalize decide (texts.length > 1) = many
  unfold printOne
  simp only [Function.comp_apply, printDocument, Bool.not_false, Bool.true_and]
  have hd : utf8Out "---\n".toList = dashes := by decide +kernel
  cases t with
  | none => cases many <;> simp [utf8Out, ← hd]
  | some t =>
    simp only [Option.map_some, Option.getD_some, he]
    by_cases hc : (many || t.isEmpty) = true
    · rw [if_pos hc, if_pos hc, ← hd]; simp [utf8Out]
    · rw [if_neg hc, if_neg hc]; simp

theorem documents_more (X : YLib) {n k : Nat} {st : YState} {ds : List Data} (h : yDocuments X n st = .ok ds) : yDocuments X (n + k) st = .ok ds := by
  induction k with
  | zero => exact h
  | succ k ih =>
    rcases yDocuments_mono X (n + k) st with h' | h'
    · rw [ih] at h'; cases h'
    · rw [← Nat.add_assoc, ← h']; exact ih

theorem decode_more (X : YLib) {n m : Nat} (hm : n ≤ m) {b : Bytes} {ds : List Data} (h : decodeBytes X n b = some ds) : decodeBytes X m b = some ds := by
  obtain ⟨k, rfl⟩ := Nat.exists_eq_add_of_le hm
  unfold decodeBytes at h ⊢
  obtain ⟨t, ht, h⟩ := Option.bind_eq_some_iff.1 h
  obtain ⟨es, he, h⟩ := Option.bind_eq_some_iff.1 h
  rw [ht, Option.bind_some, he, Option.bind_some]
  split at h
  · rename_i ds' hd
    cases h
    have : yDecode X (n + k) es = .ok ds := by
      unfold yDecode at hd ⊢
      split at hd
      · exact documents_more X hd
      · cases hd
    rw [this]
  · cases h

/-- a run for a template only -/
theorem merge_run [DecidableEq E] (X : YLib) (F J : Nat → YText) (L : Lang E) (hq : ∀ l, L.quote l ≠ [])
    (hL : ∀ k, L.requireTemplate k = true → ∃ r, k.toList = '<' :: '<' :: r) (C : CmdLib E S) (envOf : S → Env E) (fuel passes : Nat)
    (w : Surroundings) (f : String) (b : Bytes) (hb : TextOf w f b) {src : String} (docs : List (Node E))
    (hp : parseMulti (textLib X F J L fuel (passes + 1) C envOf) f b = some docs)
    (h : ∀ n ∈ docs, Fresh src n ∧ Inert n ∧ depth n < fuel ∧ (n.val.isNil = true ∨ ∃ t, marshal X F n = some t)) :
    mergeMain (textLib X F J L fuel (passes + 1) C envOf) w { template := f } [] = ⟨utf8Out (printDocuments (docs.map (textOf X F))), w.fs, none⟩ := by
  have ht : ∃ u, readTemplate w false f = .ok (b, u) := by
    unfold TextOf at hb
    unfold readTemplate
    split at hb
    · rename_i hf
      subst hb
      exact ⟨true, by rw [if_pos hf]; rfl⟩
    · rename_i hf
      rw [if_neg hf, (readFile_iff w f b).2 hb]
      exact ⟨false, rfl⟩
  obtain ⟨u, ht⟩ := ht
  have hi : ∃ c ft, readInputs (textLib X F J L fuel (passes + 1) C envOf) w { template := f } false [] = .ok ⟨docs, [], c, ft⟩ := by
    have hc : ∃ c, cmdContext (E := E) none (envFlags w.envFeatures) [] docs.length = .ok c := by
      unfold cmdContext
      split
      · exact ⟨_, rfl⟩
      · exact ⟨_, rfl⟩
    obtain ⟨c, hc⟩ := hc
    refine ⟨c, envFlags w.envFeatures, ?_⟩
    unfold readInputs
    simp only [ht, Except.bind, hp, orFatal, readState, readYAML, if_true, defineValues, readTags, readStubs, cmdFeatures, List.flatMap_nil, setFlags, Except.map,
      Bool.false_eq_true, if_false, hc]
    rfl
  obtain ⟨c, ft, hi⟩ := hi
  unfold mergeMain
  rw [show createValues [] = some [] from rfl]
  simp only
  unfold mergeCmd
  rw [show ({ template := f, values := [] } : Job) = { template := f } from rfl, hi]
  simp only [prepareAll]
  rw [all_inert X F J L hq hL C envOf fuel passes w f ft w.fs docs h]
  simp only [conclude]
  rw [← print_bytes, List.map_map]
  rfl

/-! ### the nesting -/

theorem depth_strip (n : Node E) : depth (strip n) = depth n := by
  refine Node.rec (motive_1 := fun v => depthV (stripV v) = depthV v) (motive_2 := fun n => depth (strip n) = depth n)
    (motive_3 := fun l => depthL (stripL l) = depthL l) (motive_4 := fun m => depthM (stripM m) = depthM m)
    (motive_5 := fun e => depth (strip e.2) = depth e.2) ?_ ?_ ?_ ?_ ?_ ?_ ?_ ?_ ?_ ?_ ?_ ?_ ?_ ?_ ?_ ?_ n
  · rfl
  · intro b; rfl
  · intro b; rfl
  · intro b; rfl
  · intro b; rfl
  · intro l h; simp only [stripV, depthV, h]
  · intro l h; simp only [stripV, depthV, h]
  · intro b; rfl
  · intro n h; simp only [stripV, depthV, h]
  · intro b; rfl
  · intro v s a h; simp only [strip, depth, h]
  · rfl
  · intro n r h h'; simp only [stripL, depthL, h, h']
  · rfl
  · rintro ⟨k, n⟩ r h h'; simp only [stripM, depthM, h, h']
  · intro k n h; exact h

theorem sanitize_strip {src src' : String} {d : Data} (h : DataMaps d) : ∀ n n' : Node E, sanitize src d = some n → sanitize src' d = some n' → strip n = strip n' := by
  induction h with
  | nil => intro n n' h h'; cases h; cases h'; rfl
  | bool => intro n n' h h'; cases h; cases h'; rfl
  | num => intro n n' h h'; cases h; cases h'; rfl
  | float => intro n n' h h'; cases h; cases h'; rfl
  | float32 => intro n n' h h'; cases h; cases h'; rfl
  | str => intro n n' h h'; cases h; cases h'; rfl
  | time => intro n n' h h'; cases h; cases h'; rfl
  | other => intro n n' h h'; cases h
  | seq l h ih =>
    intro n n' hn hn'
    rw [sanitize, Option.map_eq_some_iff] at hn hn'
    obtain ⟨r, hr, rfl⟩ := hn
    obtain ⟨r', hr', rfl⟩ := hn'
    rw [Node.new, Node.new, strip, strip, stripV, stripV]
    congr 2
    clear h
    induction l generalizing r r' with
    | nil => cases hr; cases hr'; rfl
    | cons d l ihl =>
      rw [sanitizeL, consOpt_some] at hr hr'
      obtain ⟨a, b, h1, h2, rfl⟩ := hr
      obtain ⟨a', b', h1', h2', rfl⟩ := hr'
      rw [stripL, stripL, ih d (by simp) a a' h1 h1', ihl (fun d hd => ih d (by simp [hd])) b h2 b' h2']
  | dict m hm h ih =>
    intro n n' hn hn'
    rw [sanitize, Option.map_eq_some_iff] at hn hn'
    obtain ⟨r, hr, rfl⟩ := hn
    obtain ⟨r', hr', rfl⟩ := hn'
    rw [Node.new, Node.new, strip, strip, stripV, stripV]
    congr 2
    clear h hm
    induction m generalizing r r' with
    | nil => cases hr; cases hr'; rfl
    | cons d l ihl =>
      obtain ⟨k, d⟩ := d
      cases k with
      | other => cases hr
      | str k =>
        rw [sanitizeD, consOpt_some] at hr hr'
        obtain ⟨a, b, h1, h2, rfl⟩ := hr
        obtain ⟨a', b', h1', h2', rfl⟩ := hr'
        rw [Option.map_eq_some_iff] at h1 h1'
        obtain ⟨x, hx, rfl⟩ := h1
        obtain ⟨x', hx', rfl⟩ := h1'
        rw [stripM, stripM, ih (.str k, d) (by simp) x x' hx hx', ihl (fun d hd => ih d (by simp [hd])) b h2 b' h2']

theorem depth_bound {src : String} {ds : List Data} (hd : ∀ d ∈ ds, DataMaps d) {ns : List (Node E)} (h : sanitizeL src ds = some ns) :
    ∃ M, ∀ src' (ns' : List (Node E)), sanitizeL src' ds = some ns' → ∀ n ∈ ns', depth n < M := by
  induction ds generalizing ns with
  | nil => exact ⟨0, fun src' ns' h' => by cases h'; simp⟩
  | cons d ds ih =>
    rw [sanitizeL, consOpt_some] at h
    obtain ⟨a, b, h1, h2, rfl⟩ := h
    obtain ⟨M, hM⟩ := ih (fun d h => hd d (by simp [h])) h2
    refine ⟨max (depth a + 1) M, fun src' ns' h' n hn => ?_⟩
    rw [sanitizeL, consOpt_some] at h'
    obtain ⟨a', b', h1', h2', rfl⟩ := h'
    rcases List.mem_cons.1 hn with rfl | hn
    · rw [← depth_strip, sanitize_strip (hd d (by simp)) n a h1' h1, depth_strip]
      omega
    · have := hM src' b' h2' n hn
      omega

theorem documents_some (X : YLib) : ∀ n s ds, yDocuments X n s = .ok ds → ds ≠ [] := by
  intro n
  cases n with
  | zero => intro s ds h; rw [yDocuments] at h; cases h
  | succ n =>
    intro s ds h
    rw [yDocuments, yres_ok] at h
    obtain ⟨x, hx, h⟩ := h
    split at h
    · cases h; simp
    · rw [yres_ok] at h
      obtain ⟨l, hl, h⟩ := h
      cases h
      simp

theorem decode_some (X : YLib) {n : Nat} {b : Bytes} {ds : List Data} (h : decodeBytes X n b = some ds) : ds ≠ [] := by
  unfold decodeBytes at h
  obtain ⟨t, ht, h⟩ := Option.bind_eq_some_iff.1 h
  obtain ⟨es, he, h⟩ := Option.bind_eq_some_iff.1 h
  split at h
  · rename_i ds' hd
    cases h
    unfold yDecode at hd
    split at hd
    · exact documents_some X _ _ _ hd
    · cases hd
  · cases h

/-- what can be said about documents just read -/
theorem inert_writable (X : YLib) {F : Nat → YText} (hF : ∀ b, F b ≠ [] ∧ '\n' ∉ F b) {src : String} {n : Node E} (h : Fresh src n) (hi : Inert n)
    (hn : NumbersOk X F n) (hr : ∀ s : String, n.val = .str s → s ∉ ["~", "null", "Null", "NULL"]) :
    Writable X F n ∧ ∃ t, marshal X F n = some t := by
  have hw : Writable X F n := ⟨fresh_data h, fun p x b hx hb => (hi.floats p x b hx hb).1, fresh_maps h, hn, hr⟩
  obtain ⟨es, -, -, -, he, -⟩ := written_ok X F "" n hw.data hw.numbers hw.maps hw.written
  exact ⟨hw, marshal_total X hF he⟩

theorem printed_as (X : YLib) {F : Nat → YText} (docs : List (Node E)) (h : ∀ n ∈ docs, ∃ t, marshal X F n = some t) :
    List.Forall₂ (PrintedAs X F) docs (docs.map (textOf X F)) := by
  induction docs with
  | nil => exact .nil
  | cons n r ih =>
    refine .cons ?_ (ih (fun n hn => h n (by simp [hn])))
    obtain ⟨t, ht⟩ := h n (by simp)
    unfold textOf
    split
    · rename_i hn
      refine .inl ⟨rfl, ?_⟩
      cases hv : n.val <;> rw [hv] at hn <;> first | rfl | cases hn
    · exact .inr ⟨t, ht, ht⟩

theorem text_same (X : YLib) (F : Nat → YText) {docs ns : List (Node E)} (hc : List.Forall₂ SameContent docs ns) {src src' : String}
    (hf : ∀ n ∈ docs, Fresh src n ∧ Inert n) (hf' : ∀ n ∈ ns, Fresh src' n) : docs.map (textOf X F) = ns.map (textOf X F) := by
  induction hc with
  | nil => rfl
  | @cons a b as bs h _ ih =>
    rw [List.map_cons, List.map_cons, ih (fun n hn => hf n (by simp [hn])) (fun n hn => hf' n (by simp [hn]))]
    congr 1
    obtain ⟨h1, h2⟩ := hf a (by simp)
    have he := content_encode X F h h1 (hf' b (by simp)) h2
    unfold textOf marshal
    rw [he]
    have : a.val.isNil = b.val.isNil := by
      have := h []
      simp only [locate, Both] at this
      cases hv : a.val <;> cases hv' : b.val <;> rw [hv, hv'] at this <;> simp only [SameKind] at this <;> rfl
    rw [this]

/-- **C89**: For a template of documents without expressions the program prints the documents in its own layout, and the output is a fixed point: the
program prints its own output unchanged, byte by byte. -/
theorem merge_output_fixpoint [DecidableEq E] (X : YLib) (F J : Nat → YText) (hF : ∀ b, F b ≠ [] ∧ '\n' ∉ F b) (L : Lang E) (hq : ∀ l, L.quote l ≠ [])
    (hL : ∀ k, L.requireTemplate k = true → ∃ r, k.toList = '<' :: '<' :: r) (C : CmdLib E S) (envOf : S → Env E)
    (w : Surroundings) (f : String) (b : Bytes) (hb : TextOf w f b) (fuel passes : Nat) (docs : List (Node E))
    (hp : DocsOf (textLib X F J L fuel passes C envOf) f b docs)
    (hd : ∀ n ∈ docs, Inert n ∧ NumbersOk X F n ∧ ∀ s : String, n.val = .str s → s ∉ ["~", "null", "Null", "NULL"]) :
    ∃ out N, ∀ fuel ≥ N, ∀ passes > 0,
      mergeMain (textLib X F J L fuel passes C envOf) w { template := f } [] = ⟨out, w.fs, none⟩ ∧
      (∃ again, DocsOf (textLib X F J L fuel passes C envOf) f out again ∧ List.Forall₂ SameContent docs again) ∧
      ∀ w' f', TextOf w' f' out → mergeMain (textLib X F J L fuel passes C envOf) w' { template := f' } [] = ⟨out, w'.fs, none⟩ := by
  obtain ⟨ds, hds, hdocs⟩ := Option.bind_eq_some_iff.1 ((parseMulti_iff _ f b docs).2 hp)
  rw [sanitizeAll_eq] at hdocs
  change decodeBytes X fuel _ = some ds at hds
  have hmaps := decodeBytes_maps X _ _ ds hds
  have hfresh := sanitizeL_fresh f hmaps docs hdocs
  have hw : ∀ n ∈ docs, Writable X F n ∧ ∃ t, marshal X F n = some t := fun n hn =>
    inert_writable X hF (hfresh n hn) (hd n hn).1 (hd n hn).2.1 (hd n hn).2.2
  have hne : docs ≠ [] := by
    rintro rfl
    refine decode_some X hds ?_
    have := ((sanitizeL_iff f ds ([] : List (Node E))).1 hdocs).1
    exact List.length_eq_zero_iff.1 this
  obtain ⟨M, hM⟩ := depth_bound hmaps hdocs
  obtain ⟨N, ds', hblank, hdec, hns⟩ := printed_data X hF docs hne (fun n hn => (hw n hn).1) (docs.map (textOf X F)) (printed_as X docs (fun n hn => (hw n hn).2))
  have hmaps' := decodeBytes_maps X _ _ ds' (hdec N (Nat.le_refl _))
  obtain ⟨M', hM'⟩ := depth_bound (E := E) hmaps' (hns "").choose_spec.1
  refine ⟨utf8Out (printDocuments (docs.map (textOf X F))), max (max fuel M) (max N M'), fun g hg k hk => ?_⟩
  obtain ⟨k, rfl⟩ : ∃ i, k = i + 1 := ⟨k - 1, by omega⟩
  have hread : ∀ src, ∃ ns : List (Node E), parseMulti (textLib X F J L g (k + 1) C envOf) src (utf8Out (printDocuments (docs.map (textOf X F)))) = some ns ∧
      List.Forall₂ SameContent docs ns ∧ (∀ n ∈ ns, Fresh src n) ∧ ∀ n ∈ ns, depth n < M' := by
    intro src
    obtain ⟨ns, h1, h2, h3⟩ := hns src
    refine ⟨ns, ?_, h2, h3, hM' src ns h1⟩
    unfold parseMulti
    rw [hblank, if_neg Bool.false_ne_true]
    change (decodeBytes X g _).bind _ = _
    rw [hdec g (by omega), Option.bind_some, sanitizeAll_eq, h1]
  refine ⟨?_, ?_, fun w' f' ht => ?_⟩
  · refine merge_run X F J L hq hL C envOf g k w f b hb docs ?_ (fun n hn => ⟨hfresh n hn, (hd n hn).1, ?_, .inr (hw n hn).2⟩)
    · unfold parseMulti
      change (decodeBytes X g _).bind _ = _
      rw [decode_more X (show fuel ≤ g by omega) hds, Option.bind_some, sanitizeAll_eq, hdocs]
    · have := hM f docs hdocs n hn
      omega
  · obtain ⟨ns, h1, h2, -⟩ := hread f
    exact ⟨ns, (parseMulti_iff _ f _ ns).1 h1, h2⟩
  · obtain ⟨ns, h1, h2, h3, h4⟩ := hread f'
    have := text_same X F h2 (fun n hn => ⟨hfresh n hn, (hd n hn).1⟩) h3
    rw [this]
    refine merge_run X F J L hq hL C envOf g k w' f' (utf8Out (printDocuments (ns.map (textOf X F)))) (by rw [← this]; exact ht) ns (by rw [← this]; exact h1) (fun n hn => ⟨h3 n hn, ?_, ?_, ?_⟩)
    · obtain ⟨i, hi⟩ := List.mem_iff_getElem?.1 hn
      have hlt : i < docs.length := by rw [h2.length_eq]; exact (List.getElem?_eq_some_iff.1 hi).1
      have hc : SameContent docs[i] n := by
        have := List.forall₂_iff_get.1 h2
        have h' := this.2 i hlt (by rw [← this.1]; exact hlt)
        rw [List.getElem?_eq_some_iff] at hi
        obtain ⟨hi1, hi2⟩ := hi
        rw [← hi2]
        exact h'
      exact content_inert hc (hd _ (List.getElem_mem hlt)).1
    · have := h4 n hn; omega
    · right
      obtain ⟨i, hi⟩ := List.mem_iff_getElem?.1 hn
      have hlt : i < docs.length := by rw [h2.length_eq]; exact (List.getElem?_eq_some_iff.1 hi).1
      have hc : SameContent docs[i] n := by
        have := List.forall₂_iff_get.1 h2
        have h' := this.2 i hlt (by rw [← this.1]; exact hlt)
        rw [List.getElem?_eq_some_iff] at hi
        obtain ⟨hi1, hi2⟩ := hi
        rw [← hi2]
        exact h'
      have he := content_encode X F hc (hfresh _ (List.getElem_mem hlt)) (h3 n hn) (hd _ (List.getElem_mem hlt)).1
      obtain ⟨t, ht⟩ := (hw _ (List.getElem_mem hlt)).2
      exact ⟨t, by rw [marshal, ← he]; exact ht⟩

/-! ### a concrete run -/

/-- an expression language without expressions -/
def dataLang : Lang Unit where
  parse _ _ _ := none
  eval _ _ := (.nil, {}, true)
  marker _ := none
  simpleMerge _ := false
  directMerge _ := false
  print _ := ""
  requireTemplate _ := false
  quote l := '"' :: (l ++ ['"'])
  interpol := false

def textExample : Bytes := asciiBytes "b: 1\na: [x y, -12, 1.5]\n---\n# nothing\n--- \nc: {k: 'no'}\n"

def textExampleLib (fuel : Nat) : CmdLib Unit Unit := textLib writeExampleLib writeExampleF writeExampleF dataLang fuel 1 toyLib (fun _ => {})

/-- the documents of the example -/
def textExampleDocs : List (Node Unit) := (parseMulti (textExampleLib 40) "t" textExample).getD []

theorem text_example : shown (mergeMain (textExampleLib 40) { fs := [("t", textExample)] } { template := "t" } []) =
    (asciiBytes "---\na:\n- x y\n- -12\n- 1.5\nb: 1\n---\n---\nc:\n  k: \"no\"\n", [("t", textExample)], none) := by
  decide +kernel

theorem no_open {t : List Char} (h : '(' ∉ t) : NoOpen t := by
  induction t with
  | nil => trivial
  | cons c r ih =>
    have hc : c ≠ '(' := fun e => h (by rw [e]; simp)
    unfold NoOpen
    split
    · rename_i heq; cases heq; exact hc rfl
    · rename_i heq; cases heq; exact ih (fun hm => h (by simp [hm]))
    · trivial

theorem locate_snoc (p : List Ix) (i : Ix) : ∀ n : Node E, locate n (p ++ [i]) = (locate n p).bind (fun x => child x.val i) := by
  induction p with
  | nil =>
    intro n
    simp only [List.nil_append, locate, Option.bind_some]
    cases child n.val i <;> rfl
  | cons j p ih =>
    intro n
    rw [List.cons_append, locate, locate]
    cases child n.val j with
    | none => rfl
    | some c => exact ih c

/-- the test used for the examples -/
def inertB (n : Node E) : Bool :=
  everyN (fun v => match v with
      | .str s => !s.toList.contains '(' && !["~", "null", "Null", "NULL"].contains s
      | .int i => decide (-(2^63) ≤ i ∧ i < 2^63)
      | .float b => decide (b = 0x3FF8000000000000)
      | .map m => m.all (fun e => e.1.toList.head? != some '<' && e.1.toList.head? != some 'k' || e.1 == "k")
      | _ => true) n

theorem inertB_ok (n : Node E) (h : inertB n = true) : Inert n ∧ NumbersOk writeExampleLib writeExampleF n ∧
    ∀ s : String, n.val = .str s → s ∉ ["~", "null", "Null", "NULL"] := by
  unfold inertB at h
  refine ⟨⟨?_, ?_, ?_⟩, ?_, ?_⟩
  · intro p x s hx hs
    have := every_at p h hx
    rw [hs] at this
    simp only [Bool.and_eq_true, Bool.not_eq_true'] at this
    have h' := this.1
    rw [List.contains_eq_mem, decide_eq_false_iff_not] at h'
    exact no_open h'
  · intro p k x hx hk
    rw [locate_snoc] at hx
    obtain ⟨y, hy, hx⟩ := Option.bind_eq_some_iff.1 hx
    have := every_at p h hy
    cases hv : y.val <;> rw [hv] at hx this <;> simp only [child] at hx <;> try (cases hx; done)
    rename_i m
    cases hm : mget m k with
    | none => rw [hm] at hx; cases hx
    | some c =>
      have := List.all_eq_true.1 this _ (mget_some_mem hm)
      rcases hk with ⟨r, hk⟩ | ⟨r, hk⟩
      · simp [hk] at this
        rw [this] at hk
        exact absurd (congrArg List.length hk) (by simp)
      · simp [hk] at this
        rw [this] at hk
        exact absurd (congrArg List.length hk) (by simp)
  · intro p x b hx hb
    have := every_at p h hx
    rw [hb] at this
    rw [of_decide_eq_true this]
    decide
  · intro p x hx
    have := every_at p h hx
    refine ⟨fun i hi => ?_, fun b hb => ?_⟩
    · rw [hi] at this
      exact of_decide_eq_true this
    · rw [hb] at this
      rw [of_decide_eq_true this]
      exact .inr (.inr write_example_numbers)
  · intro s hs
    have := every_at [] h rfl
    rw [hs] at this
    simp only [Bool.and_eq_true, Bool.not_eq_true'] at this
    simpa using this.2

/-- the hypotheses of `merge_output_fixpoint` are met -/
theorem text_example_ok : parseMulti (textExampleLib 40) "t" textExample = some textExampleDocs ∧ textExampleDocs.length = 3 ∧
    ∀ n ∈ textExampleDocs, Inert n ∧ NumbersOk writeExampleLib writeExampleF n ∧ ∀ s : String, n.val = .str s → s ∉ ["~", "null", "Null", "NULL"] := by
  have h0 : (parseMulti (textExampleLib 40) "t" textExample).isSome = true := by decide +kernel
  have h1 : ∀ n ∈ textExampleDocs, inertB n = true := by
    rw [← List.all_eq_true]
    decide +kernel
  refine ⟨?_, by decide +kernel, fun n hn => inertB_ok n (h1 n hn)⟩
  unfold textExampleDocs
  cases h : parseMulti (textExampleLib 40) "t" textExample with
  | none => rw [h] at h0; cases h0
  | some l => rfl

end Spiff
