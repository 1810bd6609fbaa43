import Verif.Props.Cascade
import Verif.Props.Tags
/-
C13, map keys: the merge keys `<<` and `<<<` are escaped as `<<!` and `<<<!`.
-/
namespace Spiff
variable {E : Type}

/-- `k` is an escaped merge key and `u` the key with one escape mark less. -/
inductive EscapedKey : String → String → Prop
  | short (x : List Char) : EscapedKey (String.ofList ('<' :: '<' :: '!' :: x)) (String.ofList ('<' :: '<' :: x))
  | long (x : List Char) : EscapedKey (String.ofList ('<' :: '<' :: '<' :: '!' :: x)) (String.ofList ('<' :: '<' :: '<' :: x))

/-- C13: an escaped merge key loses exactly one escape mark. -/
theorem escaped_key_unescape {k u : String} (h : EscapedKey k u) : unescapeKey k = u := by
  cases h <;> simp [unescapeKey, hasPrefix, MERGEKEY]

/-- C13: no other key is changed. -/
theorem other_key_unchanged {k : String} (h : ∀ u, ¬ EscapedKey k u) : unescapeKey k = k := by
  unfold unescapeKey
  split
  · next h1 =>
    obtain ⟨x, hx⟩ := hasPrefix_iff.1 h1
    have : k = String.ofList ('<' :: '<' :: '!' :: x) := by
      apply String.toList_inj.1; rw [← hx]; simp
    exact absurd (this ▸ EscapedKey.short x) (h _)
  · split
    · next h1 =>
      obtain ⟨x, hx⟩ := hasPrefix_iff.1 h1
      have : k = String.ofList ('<' :: '<' :: '<' :: '!' :: x) := by
        apply String.toList_inj.1; rw [← hx]; simp [MERGEKEY]
      exact absurd (this ▸ EscapedKey.long x) (h _)
    · rfl

/-- C13: the `n`-fold escaped merge key needs `n` merges to become a merge key. -/
theorem escaped_key_levels (n k : Nat) (hk : k ≤ n) :
    unescapeKey^[k] (String.ofList ('<' :: '<' :: List.replicate n '!')) = String.ofList ('<' :: '<' :: List.replicate (n - k) '!') ∧
    unescapeKey^[k] (String.ofList ('<' :: '<' :: '<' :: List.replicate n '!')) = String.ofList ('<' :: '<' :: '<' :: List.replicate (n - k) '!') := by
  induction k with
  | zero => exact ⟨rfl, rfl⟩
  | succ k ih =>
    obtain ⟨h1, h2⟩ := ih (by omega)
    rw [Function.iterate_succ_apply', Function.iterate_succ_apply', h1, h2]
    have : n - k = (n - (k + 1)) + 1 := by omega
    rw [this, List.replicate_succ]
    exact ⟨escaped_key_unescape (.short _), escaped_key_unescape (.long _)⟩

theorem mget_unescapeMap (q : List Char → List Char) (ip : Bool) (m : List (String × Node E)) (k : String) :
    mget (unescapeMap q ip m) k = (mget m k).map (unescapeChild q ip) := by
  induction m with
  | nil => rfl
  | cons e r ih =>
    obtain ⟨k', v⟩ := e
    simp only [unescapeMap, mget]
    split
    · rfl
    · exact ih

theorem keys_unescapeMap (q : List Char → List Char) (ip : Bool) (m : List (String × Node E)) :
    (unescapeMap q ip m).map Prod.fst = m.map Prod.fst := by
  induction m with
  | nil => rfl
  | cons e r ih => simp only [unescapeMap, List.map_cons, ih]

/-- no two fields have the same key after unescaping -/
def NoCollision (m : List (String × Node E)) : Prop :=
  ∀ k ∈ m.map Prod.fst, ∀ k' ∈ m.map Prod.fst, unescapeKey k = unescapeKey k' → k = k'

theorem mget_foldl_rekey (f : String → String) (es acc : List (String × Node E)) (k : String) (v : Node E)
    (hok : (es.map Prod.fst).Nodup) (hinj : ∀ a ∈ es.map Prod.fst, f a = f k → a = k)
    (h : mget es k = some v) :
    mget (es.foldl (fun acc e => mset acc (f e.1) e.2) acc) (f k) = some v := by
  have keep : ∀ (es acc : List (String × Node E)), (∀ a ∈ es.map Prod.fst, f a ≠ f k) →
      mget (es.foldl (fun acc e => mset acc (f e.1) e.2) acc) (f k) = mget acc (f k) := by
    intro es
    induction es with
    | nil => intro acc _; rfl
    | cons e r ih =>
      intro acc ha
      rw [List.foldl_cons, ih _ (fun a h => ha a (List.mem_cons_of_mem _ h))]
      exact mget_mset_ne _ _ (fun hh => ha e.1 (by simp) hh.symm)
  induction es generalizing acc with
  | nil => cases h
  | cons e r ih =>
    obtain ⟨k', v'⟩ := e
    simp only [List.map_cons, List.nodup_cons] at hok
    rw [List.foldl_cons]
    simp only [mget] at h
    split at h
    · next hk =>
      subst hk; cases h
      rw [keep]
      · exact mget_mset_self ..
      · intro a ha hf
        have := hinj a (by simp only [List.map_cons, List.mem_cons]; exact .inr ha) hf
        subst this; exact hok.1 ha
    · exact ih _ hok.2 (fun a ha => hinj a (by simp only [List.map_cons, List.mem_cons]; exact .inr ha)) h

theorem mget_foldl_rekey_none (f : String → String) (es acc : List (String × Node E)) (u : String)
    (h : ∀ a ∈ es.map Prod.fst, f a ≠ u) :
    mget (es.foldl (fun acc e => mset acc (f e.1) e.2) acc) u = mget acc u := by
  induction es generalizing acc with
  | nil => rfl
  | cons e r ih =>
    rw [List.foldl_cons, ih _ (fun a ha => h a (List.mem_cons_of_mem _ ha))]
    exact mget_mset_ne _ _ (fun hh => h e.1 (by simp) hh.symm)

/-- C13: a map below the root is emitted as a map with exactly the fields of the original map, each one under its
unescaped key and with its unescaped content (if no two keys collide). -/
theorem unescape_map_fields (q : List Char → List Char) (ip : Bool) (m : List (String × Node E)) (s : String) (a : Ann)
    (hok : MapOK m) (hc : NoCollision m) :
    ∃ m' s' a', unescapeChild q ip (.mk (.map m) s a) = .mk (.map m') s' a' ∧
      (∀ k v, mget m k = some v → mget m' (unescapeKey k) = some (unescapeChild q ip v)) ∧
      (∀ u, (∀ k ∈ m.map Prod.fst, unescapeKey k ≠ u) → mget m' u = none) := by
  simp only [unescapeChild]
  split
  · next h =>
    refine ⟨_, _, _, rfl, ?_, ?_⟩
    · intro k v hv
      apply mget_foldl_rekey
      · rw [keys_unescapeMap]; exact hok
      · intro b hb hf
        rw [keys_unescapeMap] at hb
        exact hc b hb k (List.mem_map.2 ⟨_, mget_some_mem hv, rfl⟩) hf
      · rw [mget_unescapeMap, hv]; rfl
    · intro u hu
      rw [mget_foldl_rekey_none _ _ _ _ (by rw [keys_unescapeMap]; exact hu)]
      rfl
  · next h =>
    have hall : ∀ k ∈ m.map Prod.fst, unescapeKey k = k := by
      intro k hk
      obtain ⟨e, he, rfl⟩ := List.mem_map.1 hk
      by_contra hne
      exact h (List.any_eq_true.2 ⟨e, he, by simpa using hne⟩)
    refine ⟨_, _, _, rfl, ?_, ?_⟩
    · intro k v hv
      rw [hall k (List.mem_map.2 ⟨_, mget_some_mem hv, rfl⟩), mget_unescapeMap, hv]; rfl
    · intro u hu
      rw [mget_unescapeMap]
      cases hm : mget m u with
      | none => rfl
      | some v =>
        have hk : u ∈ m.map Prod.fst := List.mem_map.2 ⟨_, mget_some_mem hm, rfl⟩
        exact absurd (hall u hk) (hu u hk)

/-- the integer of a field -/
def exFieldInt (n : Node Unit) (k : String) : Option Int := match n.val with
  | .map m => match mget m k with
    | some (.mk (.int i) _ _) => some i
    | _ => none
  | _ => none

/-- C13 (defect): the keys `<<<!` and `<<!<` both become `<<<` and the
surviving value depends on the iteration order of the map. -/
theorem escaped_key_collision :
    unescapeKey "<<<!" = unescapeKey "<<!<" ∧
    exFieldInt (unescapeChild id false (Node.new (.map [("<<<!", Node.new (.int 1) ""), ("<<!<", Node.new (.int 2) "")]) "")) "<<<" = some 2 ∧
    exFieldInt (unescapeChild id false (Node.new (.map [("<<!<", Node.new (.int 2) ""), ("<<<!", Node.new (.int 1) "")]) "")) "<<<" = some 1 := by
  decide +kernel

example : EscapedKey "<<!" "<<" ∧ EscapedKey "<<<!" "<<<" ∧ EscapedKey "<<!!" "<<!" := ⟨.short [], .long [], .short ['!']⟩
example : NoCollision (E := Unit) [("<<!", Node.new (.int 1) ""), ("a", Node.new (.int 2) "")] := by
  intro k hk k' hk' h
  simp only [List.map_cons, List.map_nil, List.mem_cons, List.not_mem_nil, or_false] at hk hk'
  rcases hk with rfl | rfl <;> rcases hk' with rfl | rfl <;> first | rfl | exact absurd h (by decide)

end Spiff
