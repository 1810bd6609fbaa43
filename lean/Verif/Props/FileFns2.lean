import Verif.Props.FileFns
import Verif.Props.MapFns
/-
C75 (examples, defects), C76: archives, C77: directories and temporary files, C78: commands.
-/
namespace Spiff
open Spiff.Spec
variable {E : Type}

/-! ### consequences for write -/

theorem parts_word (s : List Char) (h : ',' ∉ s) : PartsAt ',' s [s] := .one s h

theorem wordIn_self (w : List Char) : WordIn w w := ⟨[], [], by simp, by simp, by simp⟩

theorem options_binary (d : Int) : OptionsOf (E := E) d (.str "binary") ⟨true, false, d⟩ := by
  refine .words "binary" ["binary".toList] true false (.one _ (by decide)) ⟨fun _ => ⟨_, by simp, .inl (wordIn_self _)⟩, fun _ => rfl⟩ ?_ ?_
  · constructor
    · intro h; cases h
    · rintro ⟨p, hp, hm⟩
      simp at hp
      exact absurd hm (fun h => opt_disjoint p (.inl (by rw [hp]; exact wordIn_self _)) h)
  · intro p hp
    simp at hp
    exact .inl (.inl (by rw [hp]; exact wordIn_self _))

/-- **C75**: binary data survives encoding and writing: `write(file, base64(data), "binary")` writes the data, whatever the width of the lines. -/
theorem write_binary_roundtrip (L : IoLib E) (accepts : WriteReq → Bool) (f : String) (hf : f ≠ "") (d : List Nat) (hd : ∀ b ∈ d, b < 256) (max : Int) :
    ∃ name, (funcWrite L true accepts [.str f, .str (String.ofList (base64Encode d max)), .str "binary"]).1 = some ⟨name, d, 0o644⟩ := by
  obtain ⟨tags, ht⟩ := (fileNamed_iff L.home f _).1 rfl
  refine ⟨filePath L.home (String.ofList (removeTags f.toList)), (write_request L true accepts _ _).2 ⟨rfl, String.ofList (base64Encode d max), .str f, _, some (.str "binary"), f,
    ⟨true, false, 0o644⟩, tags, rfl, .str f, hf, .inr ⟨_, rfl, options_binary _⟩, ht, ?_, rfl⟩⟩
  refine .regular _ _ (.simple _ _ (.str _)) (.inl ⟨.inl rfl, ?_⟩)
  rw [String.toList_ofList]
  exact base64_roundtrip d hd max

/-- **C75** (defect): a missing content is written as an empty file, and success is reported. -/
theorem write_nil_defect (L : IoLib E) (accepts : WriteReq → Bool) (f : String) (hf : f ≠ "") (o : Option (Val E)) (w : WriteOpts)
    (ho : OptOptionsOf 0o644 o w) :
    ∃ name, (funcWrite L true accepts (.str f :: .nil :: o.toList)).1 = some ⟨name, [], w.perm⟩ ∧
      (accepts ⟨name, [], w.perm⟩ = true → (funcWrite L true accepts (.str f :: .nil :: o.toList)).2 = .ok (.str "")) := by
  obtain ⟨tags, ht⟩ := (fileNamed_iff L.home f _).1 rfl
  have hs : WriteSpec L (.str f :: .nil :: o.toList) "" ⟨filePath L.home (String.ofList (removeTags f.toList)), [], w.perm⟩ := by
    refine ⟨.str f, .nil, o, f, w, tags, rfl, .str f, hf, ho, ht, .noText ?_, rfl⟩
    rintro ⟨t, h⟩
    cases h with
    | simple _ _ h => cases h
    | doc _ _ h => exact h
  refine ⟨_, (write_request L true accepts _ _).2 ⟨rfl, _, hs⟩, fun ha => ((write_result L true accepts _).1 _).2 ⟨_, _, rfl, rfl, hs, ha⟩⟩

/-- **C75** (defect): with `multiyaml` a content that is no list is written as an empty file, and success is reported. -/
theorem write_multi_defect (L : IoLib E) (accepts : WriteReq → Bool) (f : String) (hf : f ≠ "") (m : List (String × Node E)) (o : Val E) (w : WriteOpts)
    (ho : OptionsOf 0o644 o w) (hw : w.multi = true) :
    ∃ name, (funcWrite L true accepts [.str f, .map m, o]).1 = some ⟨name, [], w.perm⟩ ∧
      (accepts ⟨name, [], w.perm⟩ = true → (funcWrite L true accepts [.str f, .map m, o]).2 = .ok (.str "")) := by
  obtain ⟨tags, ht⟩ := (fileNamed_iff L.home f _).1 rfl
  have hs : WriteSpec L [.str f, .map m, o] "" ⟨filePath L.home (String.ofList (removeTags f.toList)), [], w.perm⟩ := by
    refine ⟨.str f, .map m, some o, f, w, tags, rfl, .str f, hf, .inr ⟨o, rfl, ho⟩, ht, .noText ?_, rfl⟩
    rintro ⟨t, h⟩
    cases h with
    | simple _ _ h => cases h
    | doc _ _ _ h => rw [hw] at h; cases h
  refine ⟨_, (write_request L true accepts _ _).2 ⟨rfl, _, hs⟩, fun ha => ((write_result L true accepts _).1 _).2 ⟨_, _, rfl, rfl, hs, ha⟩⟩

/-- **C75** (defect): a text that is no base64 is written unchanged with option `binary`, and success is reported. -/
theorem write_no_base64_defect (L : IoLib E) (accepts : WriteReq → Bool) (f s : String) (hf : f ≠ "") (hs : b64Decode s.toList = none) :
    ∃ name, (funcWrite L true accepts [.str f, .str s, .str "binary"]).1 = some ⟨name, utf8Bytes s, 0o644⟩ ∧
      (accepts ⟨name, utf8Bytes s, 0o644⟩ = true → (funcWrite L true accepts [.str f, .str s, .str "binary"]).2 = .ok (.str s)) := by
  obtain ⟨tags, ht⟩ := (fileNamed_iff L.home f _).1 rfl
  have hsp : WriteSpec L [.str f, .str s, .str "binary"] s ⟨filePath L.home (String.ofList (removeTags f.toList)), utf8Bytes s, 0o644⟩ := by
    exact ⟨.str f, .str s, some (.str "binary"), f, ⟨true, false, 0o644⟩, tags, rfl, .str f, hf, .inr ⟨_, rfl, options_binary _⟩, ht,
      .noBase64 _ (.simple _ _ (.str s)) (.inl rfl) hs, rfl⟩
  refine ⟨_, (write_request L true accepts _ _).2 ⟨rfl, _, hsp⟩, fun ha => ((write_result L true accepts _).1 _).2 ⟨_, _, rfl, rfl, hsp, ha⟩⟩

/-- the premise is met -/
example : b64Decode "no base64!".toList = none := by decide +kernel

/-- **C75** (defect): the order of the options matters, because white space around permissions is not ignored. -/
theorem options_order_defect :
    getWriteOptions (E := Unit) (.str "0644, binary") { perm := 0o644 } false = some ⟨true, false, 0o644⟩ ∧
    getWriteOptions (E := Unit) (.str "binary, 0644") { perm := 0o644 } false = none ∧
    getWriteOptions (E := Unit) (.str "binary,0600") { perm := 0o644 } false = some ⟨true, false, 0o600⟩ ∧
    getWriteOptions (E := Unit) (.str "384") { perm := 0o644 } false = some ⟨false, false, 0o600⟩ := by
  decide +kernel

/-- names with tags -/
example : filePath "/root" (String.ofList (removeTags "*#:~/x".toList)) = "/root/x" ∧ hasTag '#' "*#:~/x".toList = true ∧
    hasTag '#' "*-#x".toList = false ∧ String.ofList (removeTags "*-#x".toList) = "-#x" := by decide +kernel

/-! ### temporary files and directories -/

/-- **C77**: content and permissions of a temporary file. -/
theorem tempfile_data (L : IoLib E) (args : List (Val E)) (d : List Nat) (perm : Int) :
    tempData L args = some (d, perm) ↔ TempSpec L args d perm := by
  have hn : FileNamed L.home "" [] (filePath L.home (String.ofList (removeTags "".toList))) := by
    refine ⟨[], ⟨by simp, .inr ⟨rfl, by simp⟩⟩, ?_⟩
    rw [← filePath_iff]; rfl
  have hw : ∀ (w : WriteOpts) (v : Val E), (getData L "" w v).2.2.1 = d ↔ ∃ raw, Written L w [] v raw d := by
    intro w v
    constructor
    · intro h; exact ⟨_, (getData_written L "" [] _ w v (getData L "" w v).2.1 d hn).2.1.1 ⟨rfl, h⟩⟩
    · rintro ⟨raw, h⟩; exact ((getData_written L "" [] _ w v raw d hn).2.1.2 h).2
  constructor
  · intro h
    unfold tempData at h
    split at h
    · rename_i v
      simp only [Option.some.injEq, Prod.mk.injEq] at h
      obtain ⟨raw, hr⟩ := (hw _ _).1 h.1
      exact ⟨v, none, _, raw, rfl, .inl ⟨rfl, rfl⟩, hr, h.2.symm⟩
    · rename_i v o
      split at h
      · cases h
      · rename_i w ho
        simp only [Option.some.injEq, Prod.mk.injEq] at h
        obtain ⟨raw, hr⟩ := (hw _ _).1 h.1
        exact ⟨v, some o, w, raw, rfl, .inr ⟨o, rfl, (options_iff _ _ _).1 ho⟩, hr, h.2.symm⟩
    · cases h
  · rintro ⟨v, o, w, raw, rfl, ho, hr, rfl⟩
    have hd := (hw w v).2 ⟨raw, hr⟩
    rcases ho with ⟨rfl, rfl⟩ | ⟨x, rfl, ho⟩
    · simp only [Option.toList, tempData, Option.some.injEq, Prod.mk.injEq, and_true]
      exact hd
    · have ho := (options_iff _ _ _).2 ho
      simp only [Option.toList, tempData]
      rw [ho]
      simp only [Option.some.injEq, Prod.mk.injEq, and_true]
      exact hd

/-- the components of a path are joined in order -/
theorem joinComps_iff (L : IoLib E) (l : List (Node E)) (p : String) : joinComps L "" l = some p ↔ Joined L l p := by
  have app : ∀ (l : List (Node E)) (n : Node E) (q : String), joinComps L q (l ++ [n]) =
      (joinComps L q l).bind (fun p => joinComps L p [n]) := by
    intro l n
    induction l with
    | nil => intro q; rfl
    | cons x l ih =>
      intro q
      simp only [List.cons_append, joinComps]
      split
      · rfl
      · exact ih _
  have one : ∀ (n : Node E) (p q : String), joinComps L p [n] = some q ↔ ∃ t, ScalarText L n.val t ∧ t ≠ "" ∧ q = L.joinPath p t := by
    intro n p q
    simp only [joinComps]
    constructor
    · intro h
      split at h
      · cases h
      · rename_i hc
        simp only [Bool.or_eq_true, Bool.not_eq_true', decide_eq_true_eq, not_or, Bool.not_eq_false] at hc
        exact ⟨_, (getArg_simple L false n.val _).1 ⟨hc.1, rfl⟩, hc.2, (Option.some.inj h).symm⟩
    · rintro ⟨t, ht, hne, rfl⟩
      obtain ⟨h1, h2⟩ := (getArg_simple L false n.val t).2 ht
      subst h2
      rw [if_neg (by simp [h1, hne])]
  constructor
  · intro h
    obtain ⟨m, hm⟩ : ∃ m, m = l.length := ⟨_, rfl⟩
    induction m generalizing l p with
    | zero =>
      have : l = [] := List.length_eq_zero_iff.1 hm.symm
      subst this
      simp only [joinComps, Option.some.injEq] at h
      rw [← h]; exact .nil
    | succ m ih =>
      have hne : l ≠ [] := by rintro rfl; cases hm
      rw [← List.dropLast_concat_getLast hne] at h ⊢
      rw [app] at h
      cases hj : joinComps L "" l.dropLast with
      | none => rw [hj] at h; cases h
      | some q =>
        rw [hj] at h
        obtain ⟨t, ht, hne', rfl⟩ := (one _ _ _).1 h
        exact .snoc _ _ q t (ih _ _ hj (by rw [List.length_dropLast]; omega)) ht hne'
  · intro h
    induction h with
    | nil => rfl
    | snoc l n p t _ ht hne ih => rw [app, ih]; exact (one _ _ _).2 ⟨t, ht, hne, rfl⟩

/-- the path of a new directory -/
theorem mkdirPath_iff (L : IoLib E) (v : Val E) (p : String) (e : Bool) : mkdirPath L v = some (p, e) ↔
    (e = false ∧ ScalarText L v p) ∨ (e = true ∧ ∃ l, v = .list l ∧ Joined L l p) := by
  unfold mkdirPath
  simp only
  cases hok : (getArg L false false v).ok with
  | true =>
    simp only [if_true, Option.some.injEq, Prod.mk.injEq]
    constructor
    · rintro ⟨h, rfl⟩; exact .inl ⟨rfl, (getArg_simple L false v p).1 ⟨hok, h⟩⟩
    · rintro (⟨rfl, h⟩ | ⟨_, l, rfl, _⟩)
      · exact ⟨((getArg_simple L false v p).2 h).2, rfl⟩
      · simp [getArg, docText] at hok
  | false =>
    have hno : ¬ ScalarText L v p := fun h => by rw [((getArg_simple L false v p).2 h).1] at hok; cases hok
    simp only [Bool.false_eq_true, if_false, hno, and_false, false_or]
    cases v with
    | list l =>
      simp only [Option.map_eq_some_iff, joinComps_iff, Prod.mk.injEq, Val.list.injEq, exists_eq_left']
      constructor
      · rintro ⟨a, h, rfl, rfl⟩; exact ⟨rfl, h⟩
      · rintro ⟨rfl, h⟩; exact ⟨p, h, rfl, rfl⟩
    | _ => simp

/-- **C77**: the directory created by `mkdir`: the path as simple value, with options also as list of components; permissions 0755 unless given. -/
theorem mkdir_iff (L : IoLib E) (allowed : Bool) (accepts : String × Int → Bool) (args : List (Val E)) (p : String) (perm : Int) :
    (funcMkdir L allowed accepts args).1 = some (p, perm) ↔ allowed = true ∧ p ≠ "" ∧
      ((∃ v, args = [v] ∧ ScalarText L v p ∧ perm = 0o755) ∨
       (∃ v o w, args = [v, o] ∧ (ScalarText L v p ∨ ∃ l, v = .list l ∧ Joined L l p) ∧ OptionsOf 0o755 o w ∧ w.binary = false ∧ w.multi = false ∧
          perm = w.perm)) := by
  unfold funcMkdir
  cases allowed with
  | false => simp
  | true =>
    simp only [Bool.not_true, Bool.false_eq_true, if_false, true_and]
    constructor
    · intro h
      split at h
      · rename_i v
        split at h
        · cases h
        · rename_i q e hq
          split at h
          · cases h
          · rename_i hc
            simp only [not_or, Bool.not_eq_true] at hc
            simp only [Option.some.injEq, Prod.mk.injEq] at h
            obtain ⟨rfl, rfl⟩ := h
            rcases (mkdirPath_iff L v _ _).1 hq with ⟨_, h⟩ | ⟨h, _⟩
            · exact ⟨hc.1, .inl ⟨v, rfl, h, rfl⟩⟩
            · rw [hc.2] at h; cases h
      · rename_i v o
        split at h
        · cases h
        · rename_i q e hq
          split at h
          · cases h
          · rename_i hc
            split at h
            · cases h
            · rename_i w hw
              simp only [Option.some.injEq, Prod.mk.injEq] at h
              obtain ⟨rfl, rfl⟩ := h
              obtain ⟨h1, h2, h3⟩ := (perm_options_iff _ _ _).1 hw
              refine ⟨hc, .inr ⟨v, o, w, rfl, ?_, h1, h2, h3, rfl⟩⟩
              rcases (mkdirPath_iff L v _ _).1 hq with ⟨_, h⟩ | ⟨_, h⟩
              · exact .inl h
              · exact .inr h
      · cases h
    · rintro ⟨hne, ⟨v, rfl, h, rfl⟩ | ⟨v, o, w, rfl, h, h1, h2, h3, rfl⟩⟩
      · have := (mkdirPath_iff L v p false).2 (.inl ⟨rfl, h⟩)
        simp [this, hne]
      · have hw := (perm_options_iff _ _ _).2 ⟨h1, h2, h3⟩
        rcases h with h | h
        · have := (mkdirPath_iff L v p false).2 (.inl ⟨rfl, h⟩)
          simp [this, hne, hw]
        · have := (mkdirPath_iff L v p true).2 (.inr ⟨rfl, h⟩)
          simp [this, hne, hw]

/-- … and its result: the path, if the directory has been created. -/
theorem mkdir_result (L : IoLib E) (allowed : Bool) (accepts : String × Int → Bool) (args : List (Val E)) :
    (funcMkdir L allowed accepts args).2 =
      match (funcMkdir L allowed accepts args).1 with
      | some r => if accepts r then .ok (.str r.1) else .err
      | none => .err := by
  unfold funcMkdir
  cases allowed with
  | false => simp
  | true =>
    simp only [Bool.not_true, Bool.false_eq_true, if_false]
    split
    · split
      · rfl
      · split <;> rfl
    · split
      · rfl
      · split
        · rfl
        · split <;> rfl
    · rfl

/-- **C77** (defect): a path given by a list of components is never created without permissions, although this is documented; with permissions it is. -/
theorem mkdir_list_defect (L : IoLib E) (accepts : String × Int → Bool) (l : List (Node E)) (p : String) (hj : Joined L l p) (hp : p ≠ "") :
    funcMkdir L true accepts [.list l] = (none, .err) ∧ (funcMkdir L true accepts [.list l, .int 0o755]).1 = some (p, 0o755) := by
  constructor
  · have h1 : (funcMkdir L true accepts [.list l]).1 = none := by
      cases h : (funcMkdir L true accepts [.list l]).1 with
      | none => rfl
      | some r =>
        obtain ⟨_, _, h⟩ := (mkdir_iff L true accepts _ r.1 r.2).1 h
        rcases h with ⟨v, h, hs, _⟩ | ⟨v, o, w, h, _⟩
        · cases h; cases hs
        · cases h
    have h2 := mkdir_result L true accepts [.list l]
    rw [h1] at h2
    exact Prod.ext h1 h2
  · refine (mkdir_iff L true accepts _ _ _).2 ⟨rfl, hp, .inr ⟨.list l, .int 0o755, ⟨false, false, 0o755⟩, rfl, .inr ⟨l, rfl, hj⟩, .perm _, rfl, rfl, rfl⟩⟩

/-- a list of components exists -/
example (L : IoLib Unit) : Joined L [Node.new (.str "a") "", Node.new (.int 3) ""] (L.joinPath (L.joinPath "" "a") "3") :=
  .snoc [Node.new (.str "a") ""] (Node.new (.int 3) "") _ "3" (.snoc [] (Node.new (.str "a") "") "" "a" .nil (.str "a") (by decide)) (.int 3) (by decide)

end Spiff
