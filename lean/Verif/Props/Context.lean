import Verif.Model.Context
import Verif.Lemmas.Maps
import Verif.Props.MapFns
import Mathlib.Data.List.Induction
/-
C24 (modes), C25 (features), C44 (registries).
-/
namespace Spiff

/-! C24 -/

/-- a context derived by a chain of calls -/
def deriveAll (c : Ctx) (ops : List CtxOp) : Ctx := ops.foldl CtxOp.derive c

/-- The mode set last (the default allows all). -/
def lastMode : List CtxOp → Mode
  | [] => ⟨true, true⟩
  | ops => match (ops.filterMap (fun op => match op with | .withMode _ m => some m | _ => none)).getLast? with
    | some m => m
    | none => ⟨true, true⟩

/-- The file system set last (none by default). -/
def lastFS (ops : List CtxOp) : FSKind :=
  match (ops.filterMap (fun op => match op with | .withFileSystem _ fs => some fs | _ => none)).getLast? with
  | some fs => fs
  | none => .nil

/-- no mode is set -/
def NoMode (ops : List CtxOp) : Prop := ∀ i m, CtxOp.withMode i m ∉ ops

theorem lastMode_eq (ops : List CtxOp) : lastMode ops = match (ops.filterMap (fun op => match op with | .withMode _ m => some m | _ => none)).getLast? with
    | some m => m
    | none => ⟨true, true⟩ := by
  cases ops <;> rfl

theorem deriveAll_snoc (c : Ctx) (ops : List CtxOp) (op : CtxOp) : deriveAll c (ops ++ [op]) = op.derive (deriveAll c ops) := by
  simp [deriveAll]

theorem lastMode_snoc (ops : List CtxOp) (op : CtxOp) : lastMode (ops ++ [op]) = match op with
    | .withMode _ m => m
    | _ => lastMode ops := by
  rw [lastMode_eq, lastMode_eq, List.filterMap_append]
  cases op <;> simp

theorem lastFS_snoc (ops : List CtxOp) (op : CtxOp) : lastFS (ops ++ [op]) = match op with
    | .withFileSystem _ fs => fs
    | _ => lastFS ops := by
  rw [lastFS, lastFS, List.filterMap_append]
  cases op <;> simp

theorem deriveAll_fs (w : World) (ops : List CtxOp) : (deriveAll (newCtx w) ops).fs = lastFS ops := by
  induction ops using List.reverseRecOn with
  | nil => rfl
  | append_singleton ops op ih =>
    rw [deriveAll_snoc, lastFS_snoc]
    cases op <;> first | exact ih | rfl

theorem splits_snoc (ops : List CtxOp) (op : CtxOp) (P : List CtxOp → Prop) :
    (∀ pre post, ops ++ [op] = pre ++ post → NoMode post → P pre) ↔
      P (ops ++ [op]) ∧ ((∀ i m, op ≠ .withMode i m) → ∀ pre post, ops = pre ++ post → NoMode post → P pre) := by
  constructor
  · intro h
    refine ⟨h _ [] (by simp) (by simp [NoMode]), fun hop pre post he hn => h pre (post ++ [op]) (by simp [he]) ?_⟩
    intro i m hm
    rcases List.mem_append.1 hm with hm | hm
    · exact hn i m hm
    · exact hop i m (List.mem_singleton.1 hm).symm
  · rintro ⟨h1, h2⟩ pre post he hn
    rcases List.eq_nil_or_concat post with rfl | ⟨post', x, rfl⟩
    · rw [List.append_nil] at he; rw [← he]; exact h1
    · rw [List.concat_eq_append, ← List.append_assoc] at he
      obtain ⟨h3, h4⟩ := List.append_inj' he rfl
      cases h4
      refine h2 (fun i m hx => hn i m (by simp [hx])) pre post' h3 (fun i m hm => hn i m (by simp [hm]))

theorem deriveAll_os (w : World) (ops : List CtxOp) : (deriveAll (newCtx w) ops).mode.os = true ↔
    (lastMode ops).os = true ∧ ∀ pre post, ops = pre ++ post → NoMode post → lastFS pre ≠ .other := by
  induction ops using List.reverseRecOn with
  | nil =>
    refine ⟨fun _ => ⟨rfl, ?_⟩, fun _ => rfl⟩
    intro pre post h _
    have : pre = [] := by simp at h; exact h.1
    subst this
    simp [lastFS]
  | append_singleton ops op ih =>
    rw [splits_snoc ops op (fun pre => lastFS pre ≠ .other), deriveAll_snoc, lastMode_snoc, lastFS_snoc]
    have hall : ∀ (h : ∀ pre post, ops = pre ++ post → NoMode post → lastFS pre ≠ .other), lastFS ops ≠ .other :=
      fun h => h ops [] (by simp) (by simp [NoMode])
    have hfs := deriveAll_fs w ops
    cases op with
    | withMode i m =>
      simp only [CtxOp.derive, Ctx.withMode, hfs]
      have hf : (∀ (i_1 : Nat) (m_1 : Mode), CtxOp.withMode i m ≠ .withMode i_1 m_1) ↔ False := by simp
      simp only [hf, false_imp_iff, and_true]
      unfold maskMode
      split
      · next h => simp [h]
      · next h => simp [h]
    | withFileSystem i fs =>
      have ht : (∀ (i_1 : Nat) (m_1 : Mode), CtxOp.withFileSystem i fs ≠ .withMode i_1 m_1) ↔ True := by simp
      simp only [CtxOp.derive, Ctx.withFileSystem, ht, true_imp_iff]
      unfold maskMode
      split
      · next h => simp [h]
      · next h =>
        rw [ih]
        constructor
        · rintro ⟨a, b⟩; exact ⟨a, h, b⟩
        · rintro ⟨a, _, b⟩; exact ⟨a, b⟩
    | new f =>
      have ht : (∀ (i_1 : Nat) (m_1 : Mode), CtxOp.new f ≠ .withMode i_1 m_1) ↔ True := by simp
      simp only [CtxOp.derive, ht, true_imp_iff]
      rw [ih]
      exact ⟨fun ⟨a, b⟩ => ⟨a, hall b, b⟩, fun ⟨a, _, b⟩ => ⟨a, b⟩⟩
    | withFunctions i f =>
      have ht : (∀ (i_1 : Nat) (m_1 : Mode), CtxOp.withFunctions i f ≠ .withMode i_1 m_1) ↔ True := by simp
      simp only [CtxOp.derive, ht, true_imp_iff]
      rw [ih]
      exact ⟨fun ⟨a, b⟩ => ⟨a, hall b, b⟩, fun ⟨a, _, b⟩ => ⟨a, b⟩⟩
    | withControls i f =>
      have ht : (∀ (i_1 : Nat) (m_1 : Mode), CtxOp.withControls i f ≠ .withMode i_1 m_1) ↔ True := by simp
      simp only [CtxOp.derive, ht, true_imp_iff]
      rw [ih]
      exact ⟨fun ⟨a, b⟩ => ⟨a, hall b, b⟩, fun ⟨a, _, b⟩ => ⟨a, b⟩⟩
    | withFeature i n a =>
      have ht : (∀ (i_1 : Nat) (m_1 : Mode), CtxOp.withFeature i n a ≠ .withMode i_1 m_1) ↔ True := by simp
      simp only [CtxOp.derive, ht, true_imp_iff]
      rw [ih]
      exact ⟨fun ⟨a, b⟩ => ⟨a, hall b, b⟩, fun ⟨a, _, b⟩ => ⟨a, b⟩⟩

/-- C24: commands may be executed iff the mode set last allows it, and at all times since then the file system was the one of the
operating system. -/
theorem os_allowed_iff (w : World) (ops : List CtxOp) : (deriveAll (newCtx w) ops).osAllowed = true ↔
    (lastMode ops).os = true ∧ ∀ pre post, ops = pre ++ post → NoMode post → lastFS pre ≠ .other := by
  rw [← deriveAll_os w]
  unfold Ctx.osAllowed maskMode
  split
  · next h =>
    have hfs := deriveAll_fs w ops
    constructor
    · intro h; cases h
    · intro hos
      have := ((deriveAll_os w ops).1 hos).2 ops [] (by simp) (by simp [NoMode])
      rw [hfs] at h
      exact absurd h this
  · rfl

/-- C24: files may be accessed iff the mode set last allows it. -/
theorem file_allowed_iff (w : World) (ops : List CtxOp) : (deriveAll (newCtx w) ops).fileAllowed = (lastMode ops).file := by
  have hm : (deriveAll (newCtx w) ops).mode.file = (lastMode ops).file := by
    induction ops using List.reverseRecOn with
    | nil => rfl
    | append_singleton ops op ih =>
      rw [deriveAll_snoc, lastMode_snoc]
      cases op with
      | withMode i m => simp only [CtxOp.derive, Ctx.withMode, maskMode]; split <;> rfl
      | withFileSystem i fs => simp only [CtxOp.derive, Ctx.withFileSystem, maskMode]; split <;> exact ih
      | _ => exact ih
  rw [← hm]
  unfold Ctx.fileAllowed maskMode
  split <;> rfl

theorem step_ctxs (w : World) (op : CtxOp) : ∃ l, (w.step op).ctxs = w.ctxs ++ l := by
  unfold World.step
  split
  · exact ⟨_, rfl⟩
  · split
    · exact ⟨_, rfl⟩
    · exact ⟨[], by simp⟩
  · exact ⟨[], by simp⟩

/-- C24: no call changes the mode, the file system or the registries of an existing context. -/
theorem contexts_unchanged (w : World) (ops : List CtxOp) (i : Nat) (c : Ctx) (h : w.ctxs[i]? = some c) : (w.run ops).ctxs[i]? = some c := by
  induction ops generalizing w with
  | nil => exact h
  | cons op r ih =>
    refine ih (w.step op) ?_
    obtain ⟨l, hl⟩ := step_ctxs w op
    rw [hl, List.getElem?_append_left]
    · exact h
    · rw [List.getElem?_eq_some_iff] at h
      exact h.1

/-- C24: every context is the result of a chain of calls, starting with a new context. -/
theorem context_chain (ops : List CtxOp) (c : Ctx) (h : c ∈ (World.run {} ops).ctxs) :
    ∃ (w : World) (l : List CtxOp), c = deriveAll (newCtx w) l ∧ ∀ op ∈ l, op ∈ ops := by
  induction ops using List.reverseRecOn generalizing c with
  | nil => simp [World.run] at h
  | append_singleton ops op ih =>
    have hsub : ∀ c ∈ (World.run {} ops).ctxs, ∃ (w : World) (l : List CtxOp), c = deriveAll (newCtx w) l ∧ ∀ o ∈ l, o ∈ ops ++ [op] := by
      intro c hc
      obtain ⟨w, l, h1, h2⟩ := ih c hc
      exact ⟨w, l, h1, fun o ho => by simp [h2 o ho]⟩
    have hrun : World.run {} (ops ++ [op]) = (World.run {} ops).step op := by simp [World.run]
    rw [hrun] at h
    generalize World.run {} ops = w0 at h hsub
    have hder : ∀ (c0 : Ctx), c0 ∈ w0.ctxs → ∃ (w : World) (l : List CtxOp), op.derive c0 = deriveAll (newCtx w) l ∧ ∀ o ∈ l, o ∈ ops ++ [op] := by
      intro c0 hc0
      obtain ⟨w, l, h1, h2⟩ := hsub c0 hc0
      refine ⟨w, l ++ [op], by rw [deriveAll_snoc, h1], fun o ho => ?_⟩
      rcases List.mem_append.1 ho with ho | ho
      · exact h2 o ho
      · rw [List.mem_singleton.1 ho]; simp
    unfold World.step at h
    split at h
    · rcases List.mem_append.1 h with h | h
      · exact hsub c h
      · exact ⟨w0, [], by simpa [deriveAll] using h, by simp⟩
    · split at h
      · next c0 hc0 =>
        rcases List.mem_append.1 h with h | h
        · exact hsub c h
        · rw [List.mem_singleton.1 h]
          exact hder c0 (List.mem_of_getElem? hc0)
      · exact hsub c h
    · exact hsub c h

/-- An instance: enabling the mode does not help with another file system, disabling it wins. -/
example (w : World) :
    (deriveAll (newCtx w) [.withFileSystem 0 .other, .withMode 1 ⟨true, true⟩]).osAllowed = false ∧
    (deriveAll (newCtx w) [.withFileSystem 0 .other, .withFileSystem 1 .os]).osAllowed = false ∧
    (deriveAll (newCtx w) [.withFileSystem 0 .other, .withFileSystem 1 .os, .withMode 1 ⟨true, true⟩]).osAllowed = true :=
  ⟨rfl, rfl, rfl⟩

/-! C25 -/

/-- a sequence of settings -/
def setFeatures (f : Features) (l : List (String × Bool)) : Features := l.foldl (fun f e => (f.set e.1 e.2).1) f

/-- What a setting says about a feature: the name with prefix "no" inverts it. -/
def setting (feature : String) (e : String × Bool) : Option Bool :=
  if e.1 = feature then some e.2 else if e.1 = "no" ++ feature then some (!e.2) else none

/-- The last setting concerning a feature. -/
def lastSetting (feature : String) (l : List (String × Bool)) : Option Bool := (l.filterMap (setting feature)).getLast?

/-- The known features. -/
def Known (feature : String) : Prop := feature = "interpolation" ∨ feature = "control"

theorem splitNo_no (f : String) : splitNo ("no" ++ f) = (f, true) := by
  have h : hasPrefix ("no" ++ f) "no" = true := by
    rw [hasPrefix, String.toList_append]; simp
  simp only [splitNo, h, if_true, Prod.mk.injEq, and_true]
  apply String.toList_injective
  rw [String.toList_ofList, String.toList_append]
  rfl

theorem known_no_prefix {f : String} (h : Known f) : hasPrefix f "no" = false := by
  rcases h with rfl | rfl <;> decide +kernel

theorem splitNo_known {f : String} (h : Known f) : splitNo f = (f, false) := by
  simp [splitNo, known_no_prefix h]

theorem splitNo_inv (n : String) : ((splitNo n).2 = true → n = "no" ++ (splitNo n).1) ∧ ((splitNo n).2 = false → n = (splitNo n).1) := by
  unfold splitNo
  split
  · next h =>
    refine ⟨fun _ => ?_, fun h => (by cases h)⟩
    unfold hasPrefix at h
    obtain ⟨r, hr⟩ := List.isPrefixOf_iff_prefix.1 h
    apply String.toList_injective
    rw [String.toList_append, String.toList_ofList, ← hr]
    have : "no".toList = ['n', 'o'] := rfl
    rw [this]
    simp [String.toList_ofList]
  · exact ⟨fun h => (by cases h), fun _ => rfl⟩

/-- C25: exactly the names of the known features, possibly with prefix "no", are accepted. -/
theorem set_accepts_iff (f : Features) (n : String) (a : Bool) :
    (f.set n a).2 = true ↔ n = "interpolation" ∨ n = "control" ∨ n = "nointerpolation" ∨ n = "nocontrol" := by
  have hk : (f.set n a).2 = true ↔ Known (splitNo n).1 := by
    unfold Features.set Known
    split <;> simp_all
  rw [hk]
  constructor
  · intro h
    rcases hb : (splitNo n).2
    · have := (splitNo_inv n).2 hb
      rw [← this] at h
      rcases h with h | h
      · exact .inl h
      · exact .inr (.inl h)
    · have hn := (splitNo_inv n).1 hb
      rcases h with h | h
      · rw [h] at hn
        exact .inr (.inr (.inl (hn.trans (by decide))))
      · rw [h] at hn
        exact .inr (.inr (.inr (hn.trans (by decide))))
  · rintro (rfl | rfl | rfl | rfl)
    · rw [splitNo_known (.inl rfl)]; exact .inl rfl
    · rw [splitNo_known (.inr rfl)]; exact .inr rfl
    · rw [show "nointerpolation" = "no" ++ "interpolation" by decide, splitNo_no]; exact .inl rfl
    · rw [show "nocontrol" = "no" ++ "control" by decide, splitNo_no]; exact .inr rfl

/-- C25: other names are rejected and have no effect. -/
theorem set_rejected (f : Features) (n : String) (a : Bool) (h : (f.set n a).2 = false) : (f.set n a).1 = f := by
  unfold Features.set at h ⊢
  split at h
  · cases h
  · next hc => rw [if_neg hc]

theorem enabled_set (f : Features) (n : String) (a : Bool) (x : String) (hx : Known x) :
    (f.set n a).1.enabled x = (setting x (n, a)).getD (f.enabled x) := by
  unfold Features.set setting
  by_cases h1 : n = x
  · subst h1
    rw [splitNo_known hx]
    simp only [if_true, Option.getD_some]
    rw [if_pos (show _ ∨ _ from hx)]
    cases a <;> simp [Features.enabled, mget_mset, mget_mdel]
  · by_cases h2 : n = "no" ++ x
    · subst h2
      rw [splitNo_no]
      simp only [h1, if_false, if_true, Option.getD_some]
      rw [if_pos (show _ ∨ _ from hx)]
      cases a <;> simp [Features.enabled, mget_mset, mget_mdel]
    · have hne : x ≠ (splitNo n).1 := by
        intro h
        rcases hb : (splitNo n).2
        · exact h1 (((splitNo_inv n).2 hb).trans h.symm)
        · have := (splitNo_inv n).1 hb
          rw [← h] at this
          exact h2 this
      simp only [h1, h2, if_false, Option.getD_none]
      split
      · simp only [Features.enabled]
        split
        · rw [mget_mset_ne _ _ hne]
        · rw [mget_mdel, if_neg hne]
      · rfl

/-- C25: after any sequence of settings a feature is enabled iff the last setting concerning it says so (if there is none, it is
unchanged). -/
theorem feature_enabled_iff (f : Features) (l : List (String × Bool)) (x : String) (hx : Known x) :
    (setFeatures f l).enabled x = (lastSetting x l).getD (f.enabled x) := by
  induction l using List.reverseRecOn with
  | nil => rfl
  | append_singleton l e ih =>
    have hs : setFeatures f (l ++ [e]) = ((setFeatures f l).set e.1 e.2).1 := by simp [setFeatures]
    rw [hs, enabled_set _ _ _ _ hx, ih, lastSetting, lastSetting, List.filterMap_append]
    obtain ⟨n, a⟩ := e
    rcases hset : setting x (n, a) with _ | h
    · simp only [List.filterMap_cons, List.filterMap_nil, hset, List.append_nil, Option.getD_none]
    · simp only [List.filterMap_cons, List.filterMap_nil, hset, List.getLast?_append, List.getLast?_singleton, Option.some_or, Option.getD_some]

/-- C25: no other feature can be enabled. -/
theorem unknown_feature_disabled (l : List (String × Bool)) (x : String) (hx : ¬ Known x) : (setFeatures [] l).enabled x = false := by
  induction l using List.reverseRecOn with
  | nil => rfl
  | append_singleton l e ih =>
    have hs : setFeatures [] (l ++ [e]) = ((setFeatures [] l).set e.1 e.2).1 := by simp [setFeatures]
    rw [hs]
    unfold Features.set
    split
    · next h =>
      have hne : x ≠ (splitNo e.1).1 := by rintro rfl; exact hx h
      simp only [Features.enabled] at ih ⊢
      split
      · rw [mget_mset_ne _ _ hne]; exact ih
      · rw [mget_mdel, if_neg hne]; exact ih
    · exact ih

theorem step_feats_len (w : World) (op : CtxOp) : w.feats.length ≤ (w.step op).feats.length := by
  unfold World.step
  split
  · simp
  · split
    · unfold CtxOp.setFeature
      split <;> simp
    · exact Nat.le_refl _
  · exact Nat.le_refl _

/-- C25: a new context does not share its features with existing ones. -/
theorem new_features_fresh (ops : List CtxOp) (f : Features) (c : Ctx) (h : c ∈ (World.run {} ops).ctxs) :
    c.features ≠ (newCtx (World.run {} ops)).features ∧ ((World.run {} ops).step (.new f)).enabled c = (World.run {} ops).enabled c := by
  have hlt : c.features < (World.run {} ops).feats.length := by
    induction ops using List.reverseRecOn generalizing c with
    | nil => simp [World.run] at h
    | append_singleton ops op ih =>
      have hrun : World.run {} (ops ++ [op]) = (World.run {} ops).step op := by simp [World.run]
      rw [hrun] at h ⊢
      generalize World.run {} ops = w0 at h ih
      have hold : ∀ c0 ∈ w0.ctxs, c0.features < (w0.step op).feats.length :=
        fun c0 hc0 => Nat.lt_of_lt_of_le (ih c0 hc0) (step_feats_len w0 op)
      have hfeat : ∀ c0 : Ctx, (op.derive c0).features = c0.features := by intro c0; cases op <;> rfl
      by_cases hc : c ∈ w0.ctxs
      · exact hold c hc
      · unfold World.step at h
        split at h
        · rcases List.mem_append.1 h with h | h
          · exact absurd h hc
          · rw [List.mem_singleton.1 h]
            simp [newCtx, World.step]
        · split at h
          · next c0 hc0 =>
            rcases List.mem_append.1 h with h | h
            · exact absurd h hc
            · rw [List.mem_singleton.1 h, hfeat]
              exact hold c0 (List.mem_of_getElem? hc0)
          · exact absurd h hc
        · exact absurd h hc
  refine ⟨by simp only [newCtx]; omega, ?_⟩
  funext x
  simp only [World.step, World.enabled]
  rw [List.getD_eq_getElem?_getD, List.getElem?_append_left hlt, List.getD_eq_getElem?_getD]

/-- C25: setting a feature has no effect on contexts with other roots ... -/
theorem feature_other_root (w : World) (i : Nat) (c c' : Ctx) (hc : w.ctxs[i]? = some c) (hne : c'.features ≠ c.features) (n : String) (a : Bool) :
    (w.step (.withFeature i n a)).enabled c' = w.enabled c' := by
  funext x
  simp only [World.step, CtxOp.base, hc, World.enabled, CtxOp.setFeature]
  rw [List.getD_eq_getElem?_getD, List.getElem?_modify, List.getD_eq_getElem?_getD]
  simp [Ne.symm hne]

/-- ... but it changes the context it is derived from, and all others derived from the same root: they share their features. -/
theorem feature_setting_leaks_defect (w : World) (i : Nat) (c c' : Ctx) (hc : w.ctxs[i]? = some c) (hlt : c.features < w.feats.length)
    (he : c'.features = c.features) (n : String) (a : Bool) (x : String) (hx : Known x) :
    (w.step (.withFeature i n a)).enabled c' x = (setting x (n, a)).getD (w.enabled c' x) := by
  simp only [World.step, CtxOp.base, hc, World.enabled, CtxOp.setFeature, he]
  rw [List.getD_eq_getElem?_getD, List.getElem?_modify, List.getD_eq_getElem?_getD]
  rw [List.getElem?_eq_getElem hlt]
  simp only [Option.map_eq_map, Option.map_some, Option.getD_some, if_true]
  exact enabled_set _ _ _ _ hx

/-- An instance: enabling the interpolation for a new context enables it for the old one. -/
example : ∃ c, (World.run {} [.new [], .withFeature 0 "interpolation" true]).ctxs[0]? = some c ∧
    (World.run {} [.new []]).enabled c "interpolation" = false ∧
    (World.run {} [.new [], .withFeature 0 "interpolation" true]).enabled c "interpolation" = true := by
  refine ⟨_, rfl, rfl, ?_⟩
  have := feature_setting_leaks_defect (World.run {} [.new []]) 0 _ _ rfl (by decide) rfl "interpolation" true "interpolation" (.inl rfl)
  exact this.trans (by simp [setting])

/-! C44 -/

/-- a history of function registrations: registry, name, function -/
def registerAll {F : Type} (h : FuncHeap F) (l : List (Nat × String × F)) : FuncHeap F := l.foldl (fun h e => registerFunction h e.1 e.2.1 e.2.2) h

/-- The function registered last with this name in this registry. -/
def lastReg {F : Type} (l : List (Nat × String × F)) (r : Nat) (name : String) : Option F :=
  (l.filterMap (fun e => if e.1 = r ∧ e.2.1 = name then some e.2.2 else none)).getLast?

theorem getD_modify {α : Type} (h : List α) (r r' : Nat) (f : α → α) (d : α) (hr : r < h.length) : (h.modify r f).getD r' d = if r' = r then f (h.getD r d) else h.getD r' d := by
  rw [List.getD_eq_getElem?_getD, List.getElem?_modify]
  by_cases he : r' = r
  · subst he
    simp [List.getElem?_eq_getElem hr]
  · simp [he, Ne.symm he]

theorem modify_out {α : Type} (h : List α) (r : Nat) (f : α → α) (hr : ¬ r < h.length) : h.modify r f = h := by
  apply List.ext_getElem?
  intro i
  rw [List.getElem?_modify]
  by_cases he : r = i
  · subst he
    rw [List.getElem?_eq_none (by omega)]; simp
  · simp [he]

theorem registerAll_get {F : Type} (n : Nat) (l : List (Nat × String × F)) (hl : ∀ e ∈ l, e.1 < n) (r : Nat) (name : String) :
    mget ((registerAll (List.replicate n []) l).getD r []) name = lastReg l r name ∧ (registerAll (F := F) (List.replicate n []) l).length = n := by
  induction l using List.reverseRecOn with
  | nil =>
    refine ⟨?_, by simp [registerAll]⟩
    simp only [registerAll, List.foldl_nil, lastReg, List.filterMap_nil, List.getLast?_nil]
    rw [List.getD_eq_getElem?_getD, List.getElem?_replicate]
    split <;> rfl
  | append_singleton l e ih =>
    obtain ⟨ih1, ih2⟩ := ih (fun x hx => hl x (by simp [hx]))
    have hs : registerAll (List.replicate n []) (l ++ [e]) = registerFunction (registerAll (List.replicate n []) l) e.1 e.2.1 e.2.2 := by
      simp [registerAll]
    rw [hs]
    refine ⟨?_, by simp [registerFunction, ih2]⟩
    have he : e.1 < (registerAll (F := F) (List.replicate n []) l).length := by rw [ih2]; exact hl e (by simp)
    simp only [registerFunction]
    rw [getD_modify _ _ _ _ _ he, lastReg, List.filterMap_append]
    by_cases h1 : r = e.1
    · rw [if_pos h1, mget_mset, ← h1]
      by_cases h2 : name = e.2.1
      · simp [h1, h2]
      · have hn : ¬ (e.1 = r ∧ e.2.1 = name) := fun h => h2 h.2.symm
        simp only [List.filterMap_cons, List.filterMap_nil, hn, if_false, List.append_nil, h2]
        exact ih1
    · have hn : ¬ (e.1 = r ∧ e.2.1 = name) := fun h => h1 h.1.symm
      simp only [List.filterMap_cons, List.filterMap_nil, hn, if_false, List.append_nil, h1]
      exact ih1

/-- C44: a function lookup in a registry yields the function registered there last; if there is none, the one registered last in the
default registry (number 0). Registrations in other registries have no influence. -/
theorem function_lookup {F : Type} (n : Nat) (l : List (Nat × String × F)) (hl : ∀ e ∈ l, e.1 < n) (r : Nat) (name : String) :
    lookupFunction (registerAll (List.replicate n []) l) r name = (lastReg l r name).or (lastReg l 0 name) := by
  unfold lookupFunction
  rw [(registerAll_get n l hl r name).1, (registerAll_get n l hl 0 name).1]
  rcases h : lastReg l r name with _ | f
  · by_cases h0 : r = 0
    · subst h0; simp [h]
    · simp [h0]
  · simp

/-- C44: a context uses the registry configured last, only; without one the default. The controls are not affected, and vice versa. -/
theorem context_functions {F : Type} (h : FuncHeap F) (r : Registry) (f g c : Option Nat) (name : String) :
    ((r.withFunctions f).withFunctions g).lookupFunction h name = lookupFunction h (g.getD 0) name ∧
    ((r.withFunctions g).withControls c).lookupFunction h name = lookupFunction h (g.getD 0) name ∧
    ((r.withControls c).withFunctions g).controls = c := ⟨rfl, rfl, rfl⟩

/-! controls -/

theorem regNames_get {F : Type} (cs : List (String × Option (Control F))) (opts : List String) (n : String) (h : ∀ o ∈ opts, (optName o).1 ≠ n) :
    mget (regNames cs opts).1 n = mget cs n := by
  induction opts generalizing cs with
  | nil => rfl
  | cons o r ih =>
    simp only [regNames]
    split
    · rfl
    · rw [ih _ (fun x hx => h x (by simp [hx])), mget_mset_ne _ _ (Ne.symm (h o (by simp)))]

theorem regNames_control {F : Type} (cs : List (String × Option (Control F))) (opts : List String) (n : String) (c : Control F)
    (h : mget cs n = some (some c)) : mget (regNames cs opts).1 n = some (some c) := by
  induction opts generalizing cs with
  | nil => exact h
  | cons o r ih =>
    simp only [regNames]
    split
    · exact h
    · next hne =>
      refine ih _ ?_
      rw [mget_mset_ne]
      · exact h
      · rintro rfl; exact hne c h

theorem regNames_option {F : Type} (cs : List (String × Option (Control F))) (opts : List String) (h : (regNames cs opts).2 = true) :
    ∀ o ∈ opts, mget (regNames cs opts).1 (optName o).1 = some none := by
  have hkeep : ∀ (opts : List String) (cs : List (String × Option (Control F))) (n : String), mget cs n = some none → mget (regNames cs opts).1 n = some none := by
    intro opts
    induction opts with
    | nil => intro cs n h; exact h
    | cons o r ih =>
      intro cs n h
      simp only [regNames]
      split
      · exact h
      · refine ih _ _ ?_
        rw [mget_mset]
        split
        · rfl
        · exact h
  induction opts generalizing cs with
  | nil => simp
  | cons o r ih =>
    simp only [regNames] at h ⊢
    split at h
    · cases h
    · next hne =>
      intro x hx
      rcases List.mem_cons.1 hx with rfl | hx
      · exact hkeep r _ _ (mget_mset_self _ _ _)
      · exact ih _ h x hx

theorem regNames_ok_iff {F : Type} (cs : List (String × Option (Control F))) (opts : List String) :
    (regNames cs opts).2 = true ↔ ∀ o ∈ opts, ∀ c, mget cs (optName o).1 ≠ some (some c) := by
  induction opts generalizing cs with
  | nil => simp [regNames]
  | cons o r ih =>
    simp only [regNames]
    split
    · next c hc =>
      constructor
      · intro h; cases h
      · intro h; exact absurd hc (h o (by simp) c)
    · next hne =>
      rw [ih]
      constructor
      · intro h x hx c
        rcases List.mem_cons.1 hx with rfl | hx
        · exact hne c
        · intro hc
          refine h x hx c ?_
          rw [mget_mset_ne]
          · exact hc
          · intro he; rw [he] at hc; exact hne c hc
      · intro h x hx c
        rw [mget_mset]
        split
        · simp
        · exact h x (by simp [hx]) c

/-- C44: a registered control stays what it is, whatever is registered later (successfully or not). -/
theorem control_kept {F : Type} (cs : Controls F) (n : String) (c : Control F) (h : cs.lookup n = some (some c)) (name : String) (f : F) (opts : List String) :
    (registerControl cs name f opts).1.lookup n = some (some c) := by
  unfold Controls.lookup at h ⊢
  unfold registerControl
  split
  · exact h
  · simp only [regControl]
    split
    · exact h
    · next hn =>
      refine regNames_control _ _ _ _ ?_
      rw [mget_mset_ne]
      · exact h
      · rintro rfl; simp [h] at hn

theorem regOpts_options (templ : List (String × Unit)) (m : List (String × Bool)) (opts : List String) (templ' : List (String × Unit))
    (m' : List (String × Bool)) (h : regOpts templ m opts = (templ', some m')) :
    (∀ x, (mget m' x).isSome = ((mget m x).isSome || decide (x ∈ opts.map (fun o => (optName o).1)))) ∧
    (∀ x, (mget templ' x).isSome = ((mget templ x).isSome || decide (("*" ++ x) ∈ opts))) := by
  have hopt : ∀ o x, (optName o).2 = true → (x = (optName o).1 ↔ "*" ++ x = o) := by
    intro o x
    unfold optName
    split
    · next hp =>
      intro _
      unfold hasPrefix at hp
      obtain ⟨r, hr⟩ := List.isPrefixOf_iff_prefix.1 hp
      have hstar : "*".toList = ['*'] := rfl
      rw [hstar] at hr
      constructor
      · rintro rfl
        apply String.toList_injective
        rw [String.toList_append, hstar, ← hr]
        simp [String.toList_ofList]
      · intro h
        apply String.toList_injective
        rw [String.toList_ofList, ← h, String.toList_append]; rfl
    · intro h; cases h
  have hno : ∀ o x, (optName o).2 = false → "*" ++ x ≠ o := by
    intro o x
    unfold optName
    split
    · intro h; cases h
    · next hp =>
      intro _ he
      apply hp
      rw [← he, hasPrefix, String.toList_append]; simp
  induction opts generalizing templ m with
  | nil =>
    simp only [regOpts, Prod.mk.injEq, Option.some.injEq] at h
    obtain ⟨rfl, rfl⟩ := h
    simp
  | cons o r ih =>
    simp only [regOpts] at h
    split at h
    · cases h
    · obtain ⟨h1, h2⟩ := ih _ _ h
      refine ⟨fun x => ?_, fun x => ?_⟩
      · rw [h1, mget_mset]
        by_cases hx : x = (optName o).1
        · simp [hx]
        · simp [hx]
      · rw [h2]
        rcases ho : (optName o).2
        · have := hno o x ho
          simp [this]
        · simp only [if_true, mget_mset]
          by_cases hx : x = (optName o).1
          · have := (hopt o x ho).1 hx
            have hmem : ("*" ++ x) ∈ o :: r := by rw [this]; simp
            rw [decide_eq_true hmem, if_pos hx]
            simp
          · have : "*" ++ x ≠ o := fun he => hx ((hopt o x ho).2 he)
            simp [hx, this]

/-- C44: after a successful registration the control and its options are found, with exactly the given options, and all other names are
unaffected. -/
theorem register_control_ok {F : Type} (cs : Controls F) (name : String) (f : F) (opts : List String) (h : (registerControl cs name f opts).2 = true) :
    (∃ c, (registerControl cs name f opts).1.lookup name = some (some c) ∧ c.name = name ∧ c.fn = f ∧
      ∀ x, (mget c.options x).isSome = decide (x ∈ opts.map (fun o => (optName o).1))) ∧
    (∀ o ∈ opts, (registerControl cs name f opts).1.lookup (optName o).1 = some none) ∧
    (∀ x, x ≠ name → (∀ o ∈ opts, (optName o).1 ≠ x) → (registerControl cs name f opts).1.lookup x = cs.lookup x) ∧
    (∀ x, (registerControl cs name f opts).1.isTemplate x = (cs.isTemplate x || decide (("*" ++ x) ∈ opts))) := by
  unfold registerControl at h ⊢
  split at h
  · cases h
  · next templ m hr =>
    have ho := regOpts_options _ _ _ _ _ hr
    simp only [regControl] at h ⊢
    split at h
    · cases h
    · next hn =>
      rw [if_neg hn]
      simp only at h ⊢
      refine ⟨⟨⟨name, m, f⟩, ?_, rfl, rfl, ?_⟩, ?_, ?_, ?_⟩
      · exact regNames_control _ _ _ _ (mget_mset_self _ _ _)
      · intro x; rw [ho.1 x]; simp [mget]
      · exact regNames_option _ _ h
      · intro x hx hox
        simp only [Controls.lookup]
        rw [regNames_get _ _ _ hox, mget_mset_ne _ _ hx]
      · intro x; exact ho.2 x

/-- C44: the registration fails if the name is already used, or an option is a control or the name itself. -/
theorem register_control_fails {F : Type} (cs : Controls F) (name : String) (f : F) (opts : List String)
    (h : (cs.lookup name).isSome = true ∨ ∃ o ∈ opts, (optName o).1 = name ∨ ∃ c, cs.lookup (optName o).1 = some (some c)) :
    (registerControl cs name f opts).2 = false := by
  by_contra hc
  rw [Bool.not_eq_false] at hc
  unfold registerControl at hc
  split at hc
  · cases hc
  · next templ m hr =>
    simp only [regControl] at hc
    split at hc
    · cases hc
    · next hn =>
      simp only at hc
      rw [regNames_ok_iff] at hc
      rcases h with h | ⟨o, ho, h | ⟨c, h⟩⟩
      · exact hn h
      · refine hc o ho ⟨name, m, f⟩ ?_
        rw [h]; exact mget_mset_self _ _ _
      · refine hc o ho c ?_
        rw [mget_mset_ne]
        · exact h
        · rintro he
          rw [he] at h
          unfold Controls.lookup at h
          simp [h] at hn

/-- C44: a failed registration may have an effect: the control is entered although its option is a control. -/
theorem failed_registration_effect_defect {F : Type} (f g : F) :
    ∃ cs : Controls F, (registerControl cs "b" g ["a"]).2 = false ∧ cs.lookup "b" = none ∧
      (registerControl cs "b" g ["a"]).1.lookup "b" ≠ none := by
  have hb : optName "a" = ("a", false) := by decide +kernel
  refine ⟨(registerControl {} "a" f []).1, ?_, ?_, ?_⟩ <;>
    simp [registerControl, regOpts, regControl, regNames, mget, mset, hb, Controls.lookup]

/-- C44: an option that is first declared as normal option and then as template option by another control is not detected: it becomes a
template option for the first control, too (the other order is rejected). -/
theorem template_option_ambiguity_defect {F : Type} (f g : F) :
    (registerControl (registerControl ({} : Controls F) "a" f ["x"]).1 "b" g ["*x"]).2 = true ∧
    (registerControl (registerControl ({} : Controls F) "a" f ["x"]).1 "b" g ["*x"]).1.isTemplate "x" = true ∧
    (registerControl (registerControl ({} : Controls F) "a" f ["*x"]).1 "b" g ["x"]).2 = false := by
  have h1 : optName "x" = ("x", false) := by decide +kernel
  have h2 : optName "*x" = ("x", true) := by decide +kernel
  refine ⟨?_, ?_, ?_⟩ <;> simp [registerControl, regOpts, regControl, regNames, mget, mset, h1, h2, Controls.isTemplate]

/-- An instance of a successful registration. -/
example {F : Type} (f : F) : (registerControl ({} : Controls F) "if" f ["then", "else"]).2 = true := by
  have h1 : optName "then" = ("then", false) := by decide +kernel
  have h2 : optName "else" = ("else", false) := by decide +kernel
  simp [registerControl, regOpts, regControl, regNames, mget, mset, h1, h2]

end Spiff
