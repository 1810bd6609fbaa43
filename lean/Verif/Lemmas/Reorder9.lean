import Verif.Lemmas.Reorder5
import Verif.Props.YamlWrite
import Verif.Props.Unresolved
/-
Cleaning, unescaping, checking and printing of documents that are equal up to the order of fields.
-/
namespace Spiff
open Spec
variable {E : Type}

/-- induction over documents that are equal up to the order of fields -/
theorem same_induct {P : Node E → Node E → Prop}
    (leaf : ∀ n n', Same n n' → isLeaf n.val = true → n.val = n'.val → P n n')
    (list : ∀ n n' l l', Same n n' → n.val = .list l → n'.val = .list l' → List.Forall₂ (fun a b => Same a b ∧ P a b) l l' → P n n')
    (map : ∀ n n' m m', Same n n' → n.val = .map m → n'.val = .map m' → MSame m m' → (∀ k, Both (fun a b => Same a b ∧ P a b) (mget m k) (mget m' k)) → P n n')
    (templ : ∀ n n' x x', Same n n' → n.val = .templ x → n'.val = .templ x' → Same x x' → P x x' → P n n') :
    ∀ n n', Same n n' → P n n' := by
  intro n
  refine Node.rec (motive_1 := fun v => ∀ v', VSame v v' → match v, v' with
      | .list l, .list l' => List.Forall₂ (fun a b => Same a b ∧ P a b) l l'
      | .map m, .map m' => ∀ k, Both (fun a b => Same a b ∧ P a b) (mget m k) (mget m' k)
      | .templ x, .templ x' => P x x'
      | _, _ => True)
    (motive_2 := fun n => ∀ n', Same n n' → P n n') (motive_3 := fun l => ∀ n ∈ l, ∀ n', Same n n' → P n n')
    (motive_4 := fun m => ∀ e ∈ m, ∀ n', Same e.2 n' → P e.2 n') (motive_5 := fun e => ∀ n', Same e.2 n' → P e.2 n') ?_ ?_ ?_ ?_ ?_ ?_ ?_ ?_ ?_ ?_ ?_ ?_ ?_ ?_ ?_ ?_ n
  · intro v' _; trivial
  · intro _ v' _; trivial
  · intro _ v' _; trivial
  · intro _ v' _; trivial
  · intro _ v' _; trivial
  · intro l ih v' h
    cases v' <;> simp only [VSame] at h
    simp only
    rw [forall2_iff_both] at h ⊢
    intro i
    have hi := h i
    rcases both_some hi with ⟨e, e'⟩ | ⟨x, y, e, e', hxy⟩
    · rw [e, e']; trivial
    · rw [e, e']; exact ⟨hxy, ih x (List.mem_of_getElem? e) y hxy⟩
  · intro m ih v' h
    cases v' <;> simp only [VSame] at h
    simp only
    intro k
    rcases both_some (h.2.2 k) with ⟨e, e'⟩ | ⟨x, y, e, e', hxy⟩
    · rw [e, e']; trivial
    · rw [e, e']; exact ⟨hxy, ih (k, x) (mget_some_mem e) y hxy⟩
  · intro _ v' _; trivial
  · intro n ih v' h
    cases v' <;> simp only [VSame] at h
    exact ih _ h
  · intro _ v' _; trivial
  · intro v s a ih n' h
    have hv := ih n'.val h.val
    rcases vsame_cases h.val with ⟨e, hl⟩ | ⟨l, l', e, e', h1⟩ | ⟨m, m', e, e', h1⟩ | ⟨x, x', e, e', h1⟩
    · exact leaf _ _ h hl e
    · rw [show v = .list l from e, e'] at hv
      exact list _ _ l l' h e e' hv
    · rw [show v = .map m from e, e'] at hv
      exact map _ _ m m' h e e' h1 hv
    · rw [show v = .templ x from e, e'] at hv
      exact templ _ _ x x' h e e' h1 hv
  · intro n hn; cases hn
  · intro a r ha hr n hn
    rcases List.mem_cons.1 hn with rfl | hn
    · exact ha
    · exact hr n hn
  · intro n hn; cases hn
  · intro a r ha hr n hn
    rcases List.mem_cons.1 hn with rfl | hn
    · exact ha
    · exact hr n hn
  · intro k n hn; exact hn

/-! ### printing -/

theorem encode_val (X : YLib) (F : Nat → List Char) (n : Node E) : encode X F n = encodeV X F n.val := by
  obtain ⟨v, s, a⟩ := n; rfl

theorem encodeM_none (X : YLib) (F : Nat → List Char) : ∀ m : List (String × Node E), (¬ ∀ e ∈ m, ∃ es, encode X F e.2 = some es) → encodeM X F m = none := by
  intro m
  induction m with
  | nil => intro h; exact absurd (by simp) h
  | cons e r ih =>
    obtain ⟨k, n⟩ := e
    intro h
    cases h1 : encode X F n with
    | none => simp [encodeM, h1]
    | some es =>
      have : encodeM X F r = none := ih (fun hr => h (fun e he => by
        rcases List.mem_cons.1 he with rfl | he
        · exact ⟨es, h1⟩
        · exact hr e he))
      simp [encodeM, h1, this]

theorem encode_same (X : YLib) (F : Nat → List Char) : ∀ n n' : Node E, Same n n' → encode X F n = encode X F n' := by
  refine same_induct ?_ ?_ ?_ ?_
  · intro n n' h _ e
    rw [encode_val, encode_val, e]
  · intro n n' l l' h e e' hl
    rw [encode_val, encode_val, e, e']
    simp only [encodeV]
    have : encodeL X F l = encodeL X F l' := by
      clear e e'
      induction hl with
      | nil => rfl
      | cons h _ ih => simp only [encodeL, h.2, ih]
    rw [this]
  · intro n n' m m' h e e' hm hk
    rw [encode_val, encode_val, e, e']
    simp only [encodeV]
    have move : ∀ {m m' : List (String × Node E)}, MSame m m' → (∀ k, Both (fun a b => Same a b ∧ encode X F a = encode X F b) (mget m k) (mget m' k)) →
        (∀ e ∈ m, ∃ es, encode X F e.2 = some es) → ∀ e ∈ m', ∃ es, encode X F e.2 = some es := by
      intro m m' hm hk h e he
      have h1 := hk e.1
      rw [mget_of_mem (k := e.1) (v := e.2) hm.2.1 he] at h1
      rcases both_some h1 with ⟨_, h⟩ | ⟨x, y, e1, e2, h1⟩
      · cases h
      cases e2
      rw [← h1.2]
      exact h _ (mget_some_mem e1)
    by_cases h : ∀ e ∈ m, ∃ es, encode X F e.2 = some es
    · obtain ⟨em, h1, h2, h3⟩ := encodeM_get X F m h
      obtain ⟨em', h1', h2', h3'⟩ := encodeM_get X F m' (move hm hk h)
      have hks : sortedKeys em = sortedKeys em' := by
        unfold sortedKeys
        rw [h2, h2']
        exact sorted_unique ((sortStr_perm _).trans (hm.keys.trans (sortStr_perm _).symm)) (sortStr_sorted _) (sortStr_sorted _)
      have : sortedEntries X em = sortedEntries X em' := by
        unfold sortedEntries
        rw [hks]
        have : ∀ k, mget em k = mget em' k := fun k => by
          rw [h3, h3']
          rcases both_some (hk k) with ⟨e, e'⟩ | ⟨x, y, e1, e2, h1⟩
          · rw [e, e']
          · rw [e1, e2]
            simp only [Option.bind_some, h1.2]
        simp only [this]
      rw [h1, h1', Option.map_some, Option.map_some, this]
    · have h' : ¬ ∀ e ∈ m', ∃ es, encode X F e.2 = some es := by
        refine fun h' => h (move (m := m') (m' := m) ⟨hm.2.1, hm.1, fun k => Both_symm (fun _ _ => Spec.Same.symm) (hm.2.2 k)⟩ ?_ h')
        exact fun k => Both_symm (fun _ _ h => ⟨h.1.symm, h.2.symm⟩) (hk k)
      rw [encodeM_none X F m h, encodeM_none X F m' h']
  · intro n n' x x' h e e' _ ih
    rw [encode_val, encode_val, e, e']
    exact ih

/-! ### cleaning -/

theorem cleanup_val {T : Type} (f : CleanFn T) (t : T) (n : Node E) : (cleanup f t n).val = cleanupVal f t n.val ∧ (cleanup f t n).src = n.src ∧ (cleanup f t n).ann = n.ann := by
  obtain ⟨v, s, a⟩ := n; exact ⟨rfl, rfl, rfl⟩

theorem reann_same {a b : Node E} (h : Same a b) (x : Ann) : Same (a.reann x) (b.reann x) := by
  obtain ⟨v, s, y⟩ := a
  obtain ⟨v', s', y'⟩ := b
  have := h.src
  simp only [Node.src] at this
  subst this
  exact same_mk h.val

theorem mget_cleanupMap {T : Type} (f : CleanFn T) (t : T) {m : List (String × Node E)} (h : MapOK m) (k : String) :
    mget (cleanupMap f t m) k = (mget m k).bind (fun e => (f t e.ann).map (fun r => (cleanup f r.2 e).reann r.1)) := by
  induction m with
  | nil => rfl
  | cons e r ih =>
    obtain ⟨ke, n⟩ := e
    have hr : MapOK r := (List.nodup_cons.1 h).2
    have hk : ke ∉ mkeys r := (List.nodup_cons.1 h).1
    simp only [cleanupMap]
    by_cases hke : ke = k
    · subst hke
      cases hf : f t n.ann with
      | none =>
        simp only [ih hr, mget, if_true, Option.bind_some, hf, Option.map_none]
        rw [mget_none_iff.2 hk]
        rfl
      | some r => simp [mget, hf]
    · cases hf : f t n.ann with
      | none => simp only [ih hr, mget, if_neg hke]
      | some r => simp only [ih hr, mget, if_neg hke]

theorem cleanupMap_ok {T : Type} (f : CleanFn T) (t : T) {m : List (String × Node E)} (h : MapOK m) : MapOK (cleanupMap f t m) := by
  have : ∀ m : List (String × Node E), List.Sublist (mkeys (cleanupMap f t m)) (mkeys m) := by
    intro m
    induction m with
    | nil => exact .slnil
    | cons e r ih =>
      obtain ⟨ke, n⟩ := e
      simp only [cleanupMap]
      split
      · exact ih.cons_cons _
      · exact ih.cons _
  exact (this m).nodup h

theorem cleanup_same {T : Type} (f : CleanFn T) : ∀ n n' : Node E, Same n n' → ∀ t, Same (cleanup f t n) (cleanup f t n') := by
  have up : ∀ {n n' : Node E} (t : T), Same n n' → VSame (cleanupVal f t n.val) (cleanupVal f t n'.val) → Same (cleanup f t n) (cleanup f t n') := by
    intro n n' t h hv
    rw [same_iff, (cleanup_val f t n).1, (cleanup_val f t n').1, (cleanup_val f t n).2.1, (cleanup_val f t n').2.1, (cleanup_val f t n).2.2, (cleanup_val f t n').2.2]
    exact ⟨hv, h.src, h.ann⟩
  refine same_induct ?_ ?_ ?_ ?_
  · intro n n' h hl e t
    refine up t h ?_
    rw [← e]
    have : cleanupVal f t n.val = n.val := by
      revert hl
      cases n.val <;> intro hl <;> first | rfl | (simp [isLeaf] at hl; done)
    rw [this]
    exact vsame_leaf hl
  · intro n n' l l' h e e' hl t
    refine up t h ?_
    rw [e, e']
    show List.Forall₂ Same _ _
    clear e e'
    induction hl with
    | nil => exact .nil
    | @cons a b _ _ hab _ ih =>
      simp only [cleanupList, ← hab.1.ann]
      split
      · exact .cons (reann_same (hab.2 _) _) ih
      · exact ih
  · intro n n' m m' h e e' hm hk t
    refine up t h ?_
    rw [e, e']
    refine ⟨cleanupMap_ok f t hm.1, cleanupMap_ok f t hm.2.1, fun k => ?_⟩
    rw [mget_cleanupMap f t hm.1, mget_cleanupMap f t hm.2.1]
    rcases both_some (hk k) with ⟨e, e'⟩ | ⟨x, y, e, e', hxy⟩
    · rw [e, e']; trivial
    · rw [e, e']
      simp only [Option.bind_some, ← hxy.1.ann]
      cases f t x.ann with
      | none => trivial
      | some r => exact reann_same (hxy.2 _) _
  · intro n n' x x' h e e' hx _ t
    refine up t h ?_
    rw [e, e']
    exact hx

/-! ### unresolved nodes -/

theorem unres_nil (L : Lang E) (ctx : List String) (n : Node E) : findUnresolved L ctx n = [] ↔
    (findUnresolvedV L ctx n.src n.ann n.val).1 = [] ∧ (n.ann.failed && !(findUnresolvedV L ctx n.src n.ann n.val).2) = false := by
  obtain ⟨v, s, a⟩ := n
  have hg : ∀ l : List (Unres E), groupUnres l = [] ↔ l = [] := by
    intro l
    constructor
    · intro h
      have := groupUnres_perm l
      rw [h] at this
      exact this.symm.eq_nil
    · rintro rfl; rfl
  simp only [findUnresolved, hg, Node.val, Node.src, Node.ann]
  split
  · rename_i h; simp [h]
  · rename_i h; simp [h]

theorem unresM_nil (L : Lang E) (ctx : List String) (m : List (String × Node E)) : findUnresolvedM L ctx m = [] ↔ ∀ e ∈ m, findUnresolved L (ctx ++ [e.1]) e.2 = [] := by
  induction m with
  | nil => simp [findUnresolvedM]
  | cons e r ih => obtain ⟨k, n⟩ := e; simp [findUnresolvedM, ih]

theorem unresolved_same (L : Lang E) : ∀ n n' : Node E, Same n n' → ∀ ctx ctx', findUnresolved L ctx n = [] ↔ findUnresolved L ctx' n' = [] := by
  refine same_induct ?_ ?_ ?_ ?_
  · intro n n' h hl e ctx ctx'
    rw [unres_nil, unres_nil, ← e, ← h.ann, ← h.src]
    revert hl
    cases n.val <;> intro hl <;> simp only [findUnresolvedV] <;> first | (simp [isLeaf] at hl; done) | (split <;> simp) | simp
  · intro n n' l l' h e e' hl ctx ctx'
    rw [unres_nil, unres_nil, e, e', ← h.ann]
    simp only [findUnresolvedV]
    have : ∀ i j, findUnresolvedL L ctx i l = [] ↔ findUnresolvedL L ctx' j l' = [] := by
      clear e e'
      induction hl with
      | nil => intro i j; simp [findUnresolvedL]
      | cons hab _ ih => intro i j; simp only [findUnresolvedL, List.append_eq_nil_iff, ih (i + 1) (j + 1), hab.2 (ctx ++ ["[" ++ toString i ++ "]"]) (ctx' ++ ["[" ++ toString j ++ "]"])]
    rw [this 0 0]
  · intro n n' m m' h e e' hm hk ctx ctx'
    rw [unres_nil, unres_nil, e, e', ← h.ann]
    simp only [findUnresolvedV, unresM_nil]
    have : (∀ e ∈ m, findUnresolved L (ctx ++ [e.1]) e.2 = []) ↔ (∀ e ∈ m', findUnresolved L (ctx' ++ [e.1]) e.2 = []) := by
      constructor
      · intro h e he
        have h1 := hk e.1
        rw [mget_of_mem (k := e.1) (v := e.2) hm.2.1 he] at h1
        rcases both_some h1 with ⟨_, h⟩ | ⟨x, y, e1, e2, h1⟩
        · cases h
        cases e2
        exact (h1.2 _ _).1 (h _ (mget_some_mem e1))
      · intro h e he
        have h1 := hk e.1
        rw [mget_of_mem (k := e.1) (v := e.2) hm.1 he] at h1
        rcases both_some h1 with ⟨h, _⟩ | ⟨x, y, e1, e2, h1⟩
        · cases h
        cases e1
        exact (h1.2 _ _).2 (h _ (mget_some_mem e2))
    rw [this]
  · intro n n' x x' h e e' _ _ ctx ctx'
    rw [unres_nil, unres_nil, e, e', ← h.ann]
    simp only [findUnresolvedV]

theorem unresolved_isEmpty_same (L : Lang E) {n n' : Node E} (h : Same n n') : (findUnresolved L [] n).isEmpty = (findUnresolved L [] n').isEmpty := by
  rw [Bool.eq_iff_iff, List.isEmpty_iff, List.isEmpty_iff]
  exact unresolved_same L n n' h [] []

/-! ### unescaping -/

theorem clashHere_same {n n' : Node E} (h : Same n n') : clashHere n = clashHere n' := by
  unfold clashHere
  rcases vsame_cases h.val with ⟨e, hl⟩ | ⟨l, l', e, e', h1⟩ | ⟨m, m', e, e', h1⟩ | ⟨x, x', e, e', h1⟩
  · rw [e]
  · rw [e, e']
  · rw [e, e']
    simp only
    congr 1
    exact decide_eq_decide.2 (h1.keys.map unescapeKey).nodup_iff
  · rw [e, e']

theorem escapeClash_val (n : Node E) : escapeClash n = match n.val with | .list l => escapeClashL l | .map m => escapeClashM m | _ => false := by
  obtain ⟨v, s, a⟩ := n; cases v <;> rfl

theorem escapeClashM_iff (m : List (String × Node E)) : escapeClashM m = false ↔ ∀ e ∈ m, clashHere e.2 = false ∧ escapeClash e.2 = false := by
  induction m with
  | nil => simp [escapeClashM]
  | cons e r ih => obtain ⟨k, n⟩ := e; simp [escapeClashM, ih]

theorem escapeClashL_iff (l : List (Node E)) : escapeClashL l = false ↔ ∀ e ∈ l, clashHere e = false ∧ escapeClash e = false := by
  induction l with
  | nil => simp [escapeClashL]
  | cons e r ih => simp [escapeClashL, ih]

theorem mget_unescM (q : List Char → List Char) (ip : Bool) (m : List (String × Node E)) (k : String) :
    mget (unescapeMap q ip m) k = (mget m k).map (unescapeChild q ip) := by
  induction m with
  | nil => rfl
  | cons e r ih =>
    obtain ⟨ke, n⟩ := e
    simp only [unescapeMap, mget, ih]
    split <;> rfl

theorem mkeys_unescapeMap (q : List Char → List Char) (ip : Bool) (m : List (String × Node E)) : mkeys (unescapeMap q ip m) = mkeys m := by
  induction m with
  | nil => rfl
  | cons e r ih =>
    obtain ⟨ke, n⟩ := e
    simp only [unescapeMap, mkeys, List.map_cons] at ih ⊢
    rw [ih]

theorem unescape_list (q : List Char → List Char) (ip : Bool) {l l' : List (Node E)}
    (hl : List.Forall₂ (fun a b => Same a b ∧ (clashHere a = false → escapeClash a = false → Same (unescapeChild q ip a) (unescapeChild q ip b))) l l')
    (hc : escapeClashL l = false) : List.Forall₂ Same (unescapeList q ip l) (unescapeList q ip l') := by
  induction hl with
  | nil => exact .nil
  | cons hab _ ih =>
    simp only [escapeClashL, Bool.or_eq_false_iff] at hc
    exact .cons (hab.2 hc.1.1 hc.1.2) (ih hc.2)

theorem unescape_map (q : List Char → List Char) (ip : Bool) {m m' : List (String × Node E)} (hm : MSame m m')
    (hk : ∀ k, Both (fun a b => Same a b ∧ (clashHere a = false → escapeClash a = false → Same (unescapeChild q ip a) (unescapeChild q ip b))) (mget m k) (mget m' k))
    (hc : escapeClashM m = false) : MSame (unescapeMap q ip m) (unescapeMap q ip m') := by
  refine ⟨?_, ?_, fun k => ?_⟩
  · unfold MapOK; rw [mkeys_unescapeMap]; exact hm.1
  · unfold MapOK; rw [mkeys_unescapeMap]; exact hm.2.1
  · rw [mget_unescM, mget_unescM]
    rcases both_some (hk k) with ⟨e, e'⟩ | ⟨x, y, e, e', hxy⟩
    · rw [e, e']; trivial
    · rw [e, e']
      have := (escapeClashM_iff m).1 hc _ (mget_some_mem e)
      exact hxy.2 this.1 this.2

theorem unescapeChild_same (q : List Char → List Char) (ip : Bool) : ∀ n n' : Node E, Same n n' → clashHere n = false → escapeClash n = false →
    Same (unescapeChild q ip n) (unescapeChild q ip n') := by
  refine same_induct ?_ ?_ ?_ ?_
  · rintro ⟨v, s, a⟩ ⟨v', s', a'⟩ h hl e _ _
    have h1 := h.src
    have h2 := h.ann
    simp only [Node.val, Node.src, Node.ann] at e h1 h2 hl
    subst e h1 h2
    refine same_refl ?_
    cases v <;> simp only [unescapeChild, isLeaf, Bool.false_eq_true] at hl ⊢ <;> first | trivial | (split <;> trivial)
  · rintro ⟨v, s, a⟩ ⟨v', s', a'⟩ l l' h e e' hl hc1 hc2
    have h1 := h.src
    have h2 := h.ann
    simp only [Node.val, Node.src, Node.ann] at e e' h1 h2
    subst e e' h1 h2
    exact same_mk (unescape_list q ip hl hc2)
  · rintro ⟨v, s, a⟩ ⟨v', s', a'⟩ m m' h e e' hm hk hc1 hc2
    have h1 := h.src
    have h2 := h.ann
    simp only [Node.val, Node.src, Node.ann] at e e' h1 h2
    subst e e' h1 h2
    have hu := unescape_map q ip hm hk hc2
    simp only [unescapeChild, ← hm.any (fun k => decide (unescapeKey k ≠ k))]
    split
    · refine same_new ?_ _
      refine renamed_same unescapeKey hu ?_
      rw [mkeys_unescapeMap]
      simpa [clashHere] using hc1
    · exact same_mk hu
  · rintro ⟨v, s, a⟩ ⟨v', s', a'⟩ x x' h e e' hx _ _ _
    have h1 := h.src
    have h2 := h.ann
    simp only [Node.val, Node.src, Node.ann] at e e' h1 h2
    subst e e' h1 h2
    exact same_mk (show VSame (.templ x) (.templ x') from hx)

theorem unescapeDoc_same (q : List Char → List Char) (ip : Bool) {n n' : Node E} (h : Same n n') (hc : escapeClash n = false) : Same (unescapeDoc q ip n) (unescapeDoc q ip n') := by
  obtain ⟨v, s, a⟩ := n
  obtain ⟨v', s', a'⟩ := n'
  have h1 := h.src
  have h2 := h.ann
  have hv := h.val
  simp only [Node.val, Node.src, Node.ann] at h1 h2 hv
  subst h1 h2
  refine same_mk ?_
  rcases vsame_cases hv with ⟨e, hl⟩ | ⟨l, l', e, e', h1⟩ | ⟨m, m', e, e', h1⟩ | ⟨x, x', e, e', h1⟩
  · subst e
    cases v <;> first | exact hv | (simp [isLeaf] at hl; done)
  · subst e e'
    exact unescape_list q ip (h1.imp (fun a b hab => ⟨hab, unescapeChild_same q ip a b hab⟩)) hc
  · subst e e'
    refine unescape_map q ip h1 (fun k => ?_) hc
    rcases both_some (h1.2.2 k) with ⟨e, e'⟩ | ⟨x, y, e, e', hxy⟩
    · rw [e, e']; trivial
    · rw [e, e']; exact ⟨hxy, unescapeChild_same q ip x y hxy⟩
  · subst e e'
    exact hv

theorem escapeClash_same : ∀ n n' : Node E, Same n n' → escapeClash n = escapeClash n' := by
  refine same_induct ?_ ?_ ?_ ?_
  · intro n n' h hl e
    rw [escapeClash_val, escapeClash_val, e]
  · intro n n' l l' h e e' hl
    rw [escapeClash_val, escapeClash_val, e, e']
    simp only
    clear e e'
    induction hl with
    | nil => rfl
    | cons hab _ ih => simp only [escapeClashL, clashHere_same hab.1, hab.2, ih]
  · intro n n' m m' h e e' hm hk
    rw [escapeClash_val, escapeClash_val, e, e']
    simp only
    have : escapeClashM m = false ↔ escapeClashM m' = false := by
      rw [escapeClashM_iff, escapeClashM_iff]
      constructor
      · intro h e he
        have h1 := hk e.1
        rw [mget_of_mem (k := e.1) (v := e.2) hm.2.1 he] at h1
        rcases both_some h1 with ⟨_, h⟩ | ⟨x, y, e1, e2, h1⟩
        · cases h
        cases e2
        rw [← clashHere_same h1.1, ← h1.2]
        exact h _ (mget_some_mem e1)
      · intro h e he
        have h1 := hk e.1
        rw [mget_of_mem (k := e.1) (v := e.2) hm.1 he] at h1
        rcases both_some h1 with ⟨h, _⟩ | ⟨x, y, e1, e2, h1⟩
        · cases h
        cases e1
        rw [clashHere_same h1.1, h1.2]
        exact h _ (mget_some_mem e2)
    cases h1 : escapeClashM m <;> cases h2 : escapeClashM m' <;> simp_all
  · intro n n' x x' h e e' _ _
    rw [escapeClash_val, escapeClash_val, e, e']

end Spiff
