import Verif.Lemmas.Plain
import Verif.Lemmas.NodeSimp
/-
Termination of a processing pass: a recursion depth above the nesting depth of the
document is never exhausted.
-/
namespace Spiff
variable {E : Type}

/-- `x` does not stop with `e` -/
def NE {α : Type} (e : Stop) (x : Run α) : Prop := x ≠ .error e

theorem NE_ok {α : Type} (e : Stop) (a : α) : NE e (.ok a : Run α) := by simp [NE]

theorem NE_bind {α β : Type} {e : Stop} {x : Run α} {f : α → Run β} (hx : NE e x) (hf : ∀ a, x = .ok a → NE e (f a)) :
    NE e (x.bind f) := by
  cases x with
  | error e' =>
    intro h
    simp only [Except.bind, Except.error.injEq] at h
    exact hx (by rw [h])
  | ok a => exact hf a rfl

theorem NE_map {α β : Type} {e : Stop} {x : Run α} {f : α → β} (hx : NE e x) : NE e (x.map f) := by
  cases x with
  | error e' =>
    intro h
    simp only [Except.map, Except.error.injEq] at h
    exact hx (by rw [h])
  | ok a => exact NE_ok _ _

/-- a node a pass with fuel `d` can process -/
def Small (d : Nat) (n : Node E) : Prop := depth n < d ∨ (n.ann.merged = true ∧ 0 < d)

/-- the recursive call does not stop with `e` for small nodes -/
def RecOK (e : Stop) (d : Nat) (rec : FlowFn E) : Prop := ∀ env n so, Small d n → NE e (rec env n so false)

theorem mapEntries_NE (L : Lang E) (ht : ∀ k, L.requireTemplate k = false) {e : Stop} {d : Nat} {rec : FlowFn E}
    (hrec : RecOK e d rec) (v : MapVars E) (mk : String) (so : Bool)
    (m acc : List (String × Node E)) (hm : ∀ x ∈ m, depth x.2 < d) : NE e (mapEntries L rec v mk so m acc) := by
  induction m generalizing acc with
  | nil => exact NE_ok _ _
  | cons x r ih =>
    obtain ⟨k, n⟩ := x
    unfold mapEntries
    refine NE_bind ?_ (fun a _ => ih _ (fun x hx => hm x (by simp [hx])))
    unfold mapEntry
    split
    · exact NE_ok _ _
    · split
      · rw [ht]; exact NE_map (hrec _ _ _ (Or.inl (hm (k, n) (by simp))))
      · exact NE_ok _ _

theorem flowMap_NE (L : Lang E) (ht : ∀ k, L.requireTemplate k = false) {e : Stop} {d : Nat} {rec : FlowFn E}
    (hrec : RecOK e d rec) (root : Node E)
    (m : List (String × Node E)) (env : Env E) (so t : Bool) (hm : depthM m < d) : NE e (flowMap L rec root m env so t) := by
  have hent : ∀ e ∈ m, depth e.2 < d := fun e he => Nat.lt_of_le_of_lt (depthM_le he) hm
  unfold flowMap
  split
  · exact NE_ok _ _
  · next mk mv hmk =>
    refine NE_bind ?_ ?_
    · unfold mapVars
      split
      · exact NE_ok _ _
      · next val =>
        refine NE_map (hrec _ _ _ (Or.inl ?_))
        unfold mergeKey at hmk
        split at hmk
        · next v hv =>
          split at hmk
          · simp at hmk
          · simp only [Option.some.injEq, Prod.mk.injEq] at hmk
            obtain ⟨_, rfl⟩ := hmk
            exact hent _ (mget_some_mem hv)
        · simp only [Option.some.injEq, Prod.mk.injEq] at hmk
          exact hent (MERGEKEY, val) (mget_some_mem hmk.2)
    · intro v? _
      split
      · exact NE_ok _ _
      · refine NE_map ?_
        unfold mapNew
        split
        · exact mapEntries_NE L ht hrec _ _ _ _ _ hent
        · exact NE_ok _ _

theorem depthM_mset (m : List (String × Node E)) (k : String) (n : Node E) :
    depthM (mset m k n) ≤ max (depthM m) (depth n) := by
  induction m with
  | nil => simp [mset, depthM]
  | cons e r ih =>
    obtain ⟨k', n'⟩ := e
    unfold mset
    split
    · simp only [depthM]; omega
    · simp only [depthM]; omega

theorem depth_processKeyTag (val : Node E) : depth (processKeyTag val).1 ≤ depth val := by
  unfold processKeyTag
  split
  · next m hm =>
    split
    · exact Nat.le_refl _
    · obtain ⟨v, s, a⟩ := val
      simp only [Node.val] at hm
      subst hm
      simp only [Node.withVal, depth, depthV]
      have : ∀ (m acc : List (String × Node E)), depthM (m.foldl (fun acc e => mset acc (untag e.1) e.2) acc) ≤ max (depthM acc) (depthM m) := by
        intro m
        induction m with
        | nil => intro acc; simp [depthM]
        | cons e r ih =>
          intro acc
          simp only [List.foldl_cons, depthM]
          refine Nat.le_trans (ih _) ?_
          have := depthM_mset acc (untag e.1) e.2
          omega
      have := this m []
      simp only [depthM] at this
      omega
  · exact Nat.le_refl _

/-- invariant of the loop over the entries of a list -/
def LOK (d : Nat) (t : Bool) (v : ListVars E) : Prop :=
  (v.process = true → (∀ n ∈ v.spliced, Small d n) ∧ v.template = t)

theorem LOK_splice {d : Nat} {t : Bool} {v : ListVars E} (h : LOK d t v) {val : Node E} (hv : depth val < d) :
    LOK d t (spliceEntry v val) := by
  intro hp
  simp only [spliceEntry] at hp ⊢
  refine ⟨?_, (h hp).2⟩
  intro n hn
  rcases List.mem_append.1 hn with hn | hn
  · exact (h hp).1 n hn
  · rw [List.mem_singleton] at hn
    subst hn
    exact Or.inl (Nat.lt_of_le_of_lt (depth_processKeyTag val) hv)

theorem LOK_splice' {d : Nat} {t : Bool} {v : ListVars E} (h : v.process = false) (val : Node E) :
    LOK d t (spliceEntry v val) := by
  intro hp
  simp only [spliceEntry, h] at hp
  simp at hp

theorem newEntries_merged {a b : List (Node E)} {k : String} {n : Node E} (h : n ∈ newEntries a b k) : n.ann.merged = true := by
  unfold newEntries at h
  simp only [List.mem_map] at h
  obtain ⟨x, _, rfl⟩ := h
  rfl

theorem LOK_listEntry (L : Lang E) {d : Nat} (hd0 : 0 < d) {t : Bool} (orig : Node E) (root : List (Node E))
    {val : Node E} (hval : depth val < d) (inlineNode result : Node E) (qual : String) {v : ListVars E} (h : LOK d t v) :
    LOK d t (listEntry L orig root val inlineNode result qual v).1 := by
  have h0 : LOK d t (if result.ann.keyName ≠ "" then { v with keyName := result.ann.keyName } else v) := by
    split
    · exact h
    · exact h
  unfold listEntry
  simp only
  generalize (if result.ann.keyName ≠ "" then { v with keyName := result.ann.keyName } else v) = v at h0
  split
  · next e _ =>
    unfold listEntryExpr
    split
    · exact h0
    · split
      · next m _ =>
        simp only
        generalize (if m.tag ≠ "" then m.tag else v.tag) = tg
        split
        · split
          · intro hp; simp at hp
          · exact LOK_splice' rfl _
        · exact LOK_splice' rfl _
      · exact LOK_splice' rfl _
  · next inline _ =>
    split
    · intro hp; simp at hp
    · intro hp
      refine ⟨?_, (h0 hp).2⟩
      intro n hn
      rcases List.mem_append.1 hn with hn | hn
      · exact (h0 hp).1 n hn
      · exact Or.inr ⟨newEntries_merged hn, hd0⟩
  · split
    · intro hp; exact h0 hp
    · exact LOK_splice h0 hval

theorem depth_listEntryMerge {val n : Node E} {q : String} (h : listEntryMerge val = some (n, q)) : depth n < depth val := by
  obtain ⟨v, s, a⟩ := val
  unfold listEntryMerge at h
  simp only [Node.val] at h
  split at h
  · next k x =>
    simp only [depth, depthV, depthM]
    split at h
    · simp only [Option.some.injEq, Prod.mk.injEq] at h; rw [← h.1]; omega
    · split at h
      · simp only [Option.some.injEq, Prod.mk.injEq] at h; rw [← h.1]; omega
      · simp at h
  · simp at h

theorem listEntries_NE (L : Lang E) {e : Stop} {d : Nat} (hd0 : 0 < d) {t : Bool} {rec : FlowFn E} (hrec : RecOK e d rec) (env : Env E)
    (orig : Node E) (root l : List (Node E)) (hl : ∀ n ∈ l, depth n < d) (v : ListVars E) (hv : LOK d t v) :
    NE e (listEntries L rec env orig root l v) ∧
    ∀ v', listEntries L rec env orig root l v = .ok v' → LOK d t v' := by
  induction l generalizing v with
  | nil => simp only [listEntries]; exact ⟨NE_ok _ _, by rintro _ ⟨⟩; exact hv⟩
  | cons val rest ih =>
    have ih' := ih (fun n hn => hl n (by simp [hn]))
    have hval := hl val (by simp)
    unfold listEntries
    split
    · exact ih' _ (LOK_splice hv hval)
    · next inl q hq =>
      have hle := fun r => LOK_listEntry L hd0 orig root hval inl r q hv
      have hin : depth inl < d := Nat.lt_trans (depth_listEntryMerge hq) hval
      cases hr : rec env inl false false with
      | error x =>
        refine ⟨?_, by simp [Except.bind]⟩
        intro h
        simp only [Except.bind, Except.error.injEq] at h
        exact hrec env inl false (Or.inl hin) (by rw [hr, h])
      | ok r =>
        simp only [Except.bind]
        split
        · refine ⟨NE_ok _ _, ?_⟩
          rintro _ ⟨⟩
          exact hle r
        · exact ih' _ (hle r)

theorem stepName_NE {e : Stop} {d : Nat} (hd0 : 0 < d) {rec : FlowFn E} (hrec : RecOK e d rec) (i : Nat) (n : Node E) (k : String)
    (env : Env E) (u : Bool) : NE e (stepName rec i n k env u) := by
  unfold stepName
  simp only
  split
  · exact NE_ok _ _
  · split
    · next x _ =>
      split
      · exact NE_ok _ _
      · split
        · next hx =>
          refine NE_map (hrec _ _ _ (Or.inl ?_))
          obtain ⟨v, s, a⟩ := x
          cases v <;> simp_all [Val.isExpr, depth, depthV]
        · exact NE_ok _ _
    · exact NE_ok _ _

theorem uniqueKeys_NE {e : Stop} {d : Nat} (hd0 : 0 < d) {rec : FlowFn E} (hrec : RecOK e d rec) (k : String)
    (env : Env E) (i : Nat) (l : List (Node E)) (keys : List String) : NE e (uniqueKeys rec k env i l keys) := by
  induction l generalizing i keys with
  | nil => exact NE_ok _ _
  | cons n r ih =>
    unfold uniqueKeys
    refine NE_bind (stepName_NE hd0 hrec _ _ _ _ _) (fun s _ => ?_)
    split
    · exact NE_ok _ _
    · exact ih _ _

theorem flowEntries_NE {e : Stop} {d : Nat} (hd0 : 0 < d) {rec : FlowFn E} (hrec : RecOK e d rec) (k : String)
    (env : Env E) (u nm : Bool) (i : Nat) (l : List (Node E)) (hl : ∀ n ∈ l, Small d n) :
    NE e (flowEntries rec k env u nm i l) := by
  induction l generalizing i with
  | nil => exact NE_ok _ _
  | cons n r ih =>
    unfold flowEntries
    refine NE_bind (stepName_NE hd0 hrec _ _ _ _ _) (fun s _ => NE_bind ?_ (fun a _ => NE_map (ih _ (fun n hn => hl n (by simp [hn])))))
    unfold flowEntry
    simp only
    split
    · refine hrec _ _ _ ?_
      split
      · exact Or.inr ⟨rfl, hd0⟩
      · exact hl n (by simp)
    · exact NE_ok _ _

theorem flowList_NE (L : Lang E) {e : Stop} {d : Nat} {rec : FlowFn E} (hrec : RecOK e d rec) (root : Node E)
    (l : List (Node E)) (env : Env E) (t : Bool) (hl : depthL l < d) (ht : e = .panic → t = false) :
    NE e (flowList L rec root l env t) := by
  have hd0 : 0 < d := by omega
  have hent : ∀ n ∈ l, depth n < d := fun n hn => Nat.lt_of_le_of_lt (depthL_le hn) hl
  unfold flowList
  split
  · exact NE_ok _ _
  · have h0 : LOK d t (listVars0 root (inheritedFlags env).1 t) := by
      intro _; exact ⟨by simp [listVars0], rfl⟩
    have h1 := listEntries_NE L hd0 hrec env root l l hent _ h0
    unfold processMerges
    refine NE_bind (NE_map h1.1) (fun v hv => NE_map ?_)
    have hv' : LOK d t v := by
      cases hle : listEntries L rec env root l l (listVars0 root (inheritedFlags env).1 t) with
      | error x => rw [hle] at hv; simp [Except.map] at hv
      | ok v' =>
        rw [hle] at hv
        simp only [Except.map, Except.ok.injEq] at hv
        subst hv
        have := h1.2 v' hle
        unfold setNoMerge
        split <;> exact this
    unfold listNew
    split
    · next hp =>
      obtain ⟨h3, h4⟩ := hv' hp
      split
      · next htt =>
        intro hc
        simp only [Except.error.injEq] at hc
        have := ht hc.symm
        rw [h4, this] at htt
        simp at htt
      · simp only
        refine NE_bind ?_ (fun u _ => NE_map (flowEntries_NE hd0 hrec _ _ _ _ _ _ h3))
        split
        · exact uniqueKeys_NE hd0 hrec _ _ _ _ _
        · exact NE_ok _ _
    · exact NE_ok _ _

theorem flow_NE (L : Lang E) (ht : ∀ k, L.requireTemplate k = false) (e : Stop) (fuel : Nat) :
    RecOK e fuel (flow L fuel) := by
  induction fuel with
  | zero =>
    intro env n so h
    rcases h with h | h <;> omega
  | succ f ih =>
    intro env n so h
    simp only [flow, flowStep]
    split
    · split
      · exact NE_ok _ _
      · next hme =>
        obtain ⟨v, s, a⟩ := n
        have hd : a.merged = false ∨ v.isExpr = true := by
          simp only [Node.val, Node.ann] at hme
          cases hb : a.merged <;> simp_all
        have hs : depth (Node.mk v s a) < f + 1 := by
          rcases hd with hd | hd
          · rcases h with h | h
            · exact h
            · simp [hd] at h
          · cases v <;> simp_all [Val.isExpr, depth, depthV]
        cases v with
        | map m => exact flowMap_NE L ht ih _ _ _ _ _ (by simp only [depth, depthV] at hs; omega)
        | list l => exact flowList_NE L ih _ _ _ _ (by simp only [depth, depthV] at hs; omega) (fun _ => rfl)
        | expr e =>
          simp only [Node.val]
          split <;> exact NE_ok _ _
        | str x =>
          simp only [Node.val_mk]
          split <;> split <;> exact NE_ok _ _
        | _ => exact NE_ok _ _
    · exact NE_ok _ _

end Spiff
