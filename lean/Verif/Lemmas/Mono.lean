import Verif.Lemmas.Total
/-
The result of a pass does not depend on the recursion bound.
-/
namespace Spiff
variable {E : Type}

/-- a result of `x` is also the result of `y` -/
def LE {α : Type} (x y : Run α) : Prop := ∀ a, x = .ok a → y = .ok a

theorem LE_refl {α : Type} (x : Run α) : LE x x := fun _ h => h

theorem LE_bind {α β : Type} {x y : Run α} {f g : α → Run β} (h : LE x y) (hf : ∀ a, LE (f a) (g a)) :
    LE (x.bind f) (y.bind g) := by
  intro b hb
  cases x with
  | error e => simp [Except.bind] at hb
  | ok a => rw [h a rfl]; exact hf a b hb

theorem LE_map {α β : Type} {x y : Run α} {f : α → β} (h : LE x y) : LE (x.map f) (y.map f) := by
  intro b hb
  cases x with
  | error e => simp [Except.map] at hb
  | ok a => rw [h a rfl]; exact hb

def RecLE (rec rec' : FlowFn E) : Prop := ∀ env n so et, LE (rec env n so et) (rec' env n so et)

variable {rec rec' : FlowFn E}

theorem mapEntries_LE (L : Lang E) (h : RecLE rec rec') (v : MapVars E) (mk : String) (so : Bool)
    (m acc : List (String × Node E)) : LE (mapEntries L rec v mk so m acc) (mapEntries L rec' v mk so m acc) := by
  induction m generalizing acc with
  | nil => exact LE_refl _
  | cons x r ih =>
    obtain ⟨k, n⟩ := x
    unfold mapEntries
    refine LE_bind ?_ (fun a => ih _)
    unfold mapEntry
    split
    · exact LE_refl _
    · split
      · exact LE_map (h _ _ _ _)
      · exact LE_refl _

theorem flowMap_LE (L : Lang E) (h : RecLE rec rec') (root : Node E)
    (m : List (String × Node E)) (env : Env E) (so t : Bool) :
    LE (flowMap L rec root m env so t) (flowMap L rec' root m env so t) := by
  unfold flowMap
  split
  · exact LE_refl _
  · refine LE_bind ?_ (fun v? => ?_)
    · unfold mapVars
      split
      · exact LE_refl _
      · exact LE_map (h _ _ _ _)
    · split
      · exact LE_refl _
      · refine LE_map ?_
        unfold mapNew
        split
        · exact mapEntries_LE L h _ _ _ _ _
        · exact LE_refl _

theorem listEntries_LE (L : Lang E) (h : RecLE rec rec') (env : Env E) (orig : Node E) (root l : List (Node E)) (v : ListVars E) :
    LE (listEntries L rec env orig root l v) (listEntries L rec' env orig root l v) := by
  induction l generalizing v with
  | nil => exact LE_refl _
  | cons val rest ih =>
    unfold listEntries
    split
    · exact ih _
    · refine LE_bind (h _ _ _ _) (fun r => ?_)
      split
      · exact LE_refl _
      · exact ih _

theorem stepName_LE (h : RecLE rec rec') (i : Nat) (n : Node E) (k : String) (env : Env E) (u : Bool) :
    LE (stepName rec i n k env u) (stepName rec' i n k env u) := by
  unfold stepName
  simp only
  split
  · exact LE_refl _
  · split
    · split
      · exact LE_refl _
      · split
        · exact LE_map (h _ _ _ _)
        · exact LE_refl _
    · exact LE_refl _

theorem uniqueKeys_LE (h : RecLE rec rec') (k : String) (env : Env E) (i : Nat) (l : List (Node E)) (keys : List String) :
    LE (uniqueKeys rec k env i l keys) (uniqueKeys rec' k env i l keys) := by
  induction l generalizing i keys with
  | nil => exact LE_refl _
  | cons n r ih =>
    unfold uniqueKeys
    refine LE_bind (stepName_LE h _ _ _ _ _) (fun s => ?_)
    split
    · exact LE_refl _
    · exact ih _ _

theorem flowEntries_LE (h : RecLE rec rec') (k : String) (env : Env E) (u nm : Bool) (i : Nat) (l : List (Node E)) :
    LE (flowEntries rec k env u nm i l) (flowEntries rec' k env u nm i l) := by
  induction l generalizing i with
  | nil => exact LE_refl _
  | cons n r ih =>
    unfold flowEntries
    refine LE_bind (stepName_LE h _ _ _ _ _) (fun s => LE_bind ?_ (fun a => LE_map (ih _)))
    unfold flowEntry
    simp only
    split
    · exact h _ _ _ _
    · exact LE_refl _

theorem flowList_LE (L : Lang E) (h : RecLE rec rec') (root : Node E)
    (l : List (Node E)) (env : Env E) (t : Bool) : LE (flowList L rec root l env t) (flowList L rec' root l env t) := by
  unfold flowList
  split
  · exact LE_refl _
  · unfold processMerges
    refine LE_bind (LE_map (listEntries_LE L h _ _ _ _ _)) (fun v => LE_map ?_)
    unfold listNew
    split
    · split
      · exact LE_refl _
      · simp only
        refine LE_bind ?_ (fun u => LE_map (flowEntries_LE h _ _ _ _ _ _))
        split
        · exact uniqueKeys_LE h _ _ _ _ _
        · exact LE_refl _
    · exact LE_refl _

theorem flowStep_LE (L : Lang E) (h : RecLE rec rec') : RecLE (flowStep L rec) (flowStep L rec') := by
  intro env n so et
  simp only [flowStep]
  split
  · split
    · exact LE_refl _
    · split
      · exact flowMap_LE L h _ _ _ _ _
      · exact flowList_LE L h _ _ _ _
      · exact LE_refl _
      · exact LE_refl _
      · exact LE_refl _
  · exact LE_refl _

theorem flow_LE (L : Lang E) {f f' : Nat} (h : f ≤ f') : RecLE (flow L f) (flow L f') := by
  induction f generalizing f' with
  | zero => intro env n so et a ha; simp [flow] at ha
  | succ f ih =>
    obtain ⟨g, rfl⟩ : ∃ g, f' = g + 1 := ⟨f' - 1, by omega⟩
    exact flowStep_LE L (ih (by omega))

end Spiff
