import Verif.Spec.SemVer
import Mathlib.Data.List.Forall2
/-
C101: semantic versions.
-/
namespace Spiff
open Spec

section
variable {V E : Type} (L : SemLib V)

theorem semParse_iff (a : Val E) (v : V) : semParse L a = some v ↔ VersionOf L a v := by
  unfold VersionOf
  cases a <;> simp [semParse]

theorem constraints_true (v : V) (args : List (Val E)) : semConstraints L v args = some true ↔ ∀ c ∈ args, Judges L v true c := by
  induction args with
  | nil => simp [semConstraints]
  | cons c r ih =>
    rw [List.forall_mem_cons, ← ih]
    unfold Judges
    cases c <;> simp [semConstraints]
    rename_i s
    rcases h : L.constraint s with _ | f
    · simp
    · by_cases hf : f v = true <;> simp [hf]

theorem constraints_false (v : V) (args : List (Val E)) :
    semConstraints L v args = some false ↔ ∃ pre c post, args = pre ++ c :: post ∧ (∀ x ∈ pre, Judges L v true x) ∧ Judges L v false c := by
  induction args with
  | nil => simp [semConstraints]
  | cons c r ih =>
    have hr : (∃ pre d post, c :: r = pre ++ d :: post ∧ (∀ x ∈ pre, Judges L v true x) ∧ Judges L v false d) ↔
        Judges L v false c ∨ (Judges L v true c ∧ ∃ pre d post, r = pre ++ d :: post ∧ (∀ x ∈ pre, Judges L v true x) ∧ Judges L v false d) := by
      constructor
      · rintro ⟨pre, d, post, h1, h2, h3⟩
        cases pre with
        | nil => cases h1; exact .inl h3
        | cons x pre =>
          cases h1
          exact .inr ⟨h2 _ (by simp), pre, d, post, rfl, fun y hy => h2 y (by simp [hy]), h3⟩
      · rintro (h | ⟨h, pre, d, post, rfl, h2, h3⟩)
        · exact ⟨[], c, r, rfl, by simp, h⟩
        · exact ⟨c :: pre, d, post, rfl, by simpa using ⟨h, h2⟩, h3⟩
    rw [hr, ← ih]
    unfold Judges
    cases c <;> simp [semConstraints]
    rename_i s
    rcases h : L.constraint s with _ | f
    · simp
    · cases hf : f v <;> simp [hf]

/-- **C101**: matching a version: true if it meets all constraints, false if it does not meet one and all constraints before are met. -/
theorem semmatch_iff (a : Val E) (args : List (Val E)) (r : Val E) :
    semMatch L (a :: args) = .ok r ↔ ∃ v, VersionOf L a v ∧
      ((r = .bool true ∧ ∀ c ∈ args, Judges L v true c) ∨
       (r = .bool false ∧ ∃ pre c post, args = pre ++ c :: post ∧ (∀ x ∈ pre, Judges L v true x) ∧ Judges L v false c)) := by
  simp only [semMatch, semCheck, ← constraints_false]
  simp only [← constraints_true, ← semParse_iff]
  rcases h : semParse L a with _ | v
  · simp
  · simp only [Option.some.injEq, exists_eq_left']
    rcases hc : semConstraints L v args with _ | b
    · simp
    · cases b <;> simp [eq_comm]

/-- **C101**: validating a version yields it unchanged, exactly if it meets all constraints. -/
theorem semvalidate_iff (a : Val E) (args : List (Val E)) (r : Val E) :
    semValidate L (a :: args) = .ok r ↔ r = a ∧ ∃ v, VersionOf L a v ∧ ∀ c ∈ args, Judges L v true c := by
  simp only [semValidate, semCheck, ← constraints_true, ← semParse_iff]
  rcases h : semParse L a with _ | v
  · simp
  · simp only [Option.some.injEq, exists_eq_left']
    rcases hc : semConstraints L v args with _ | b
    · simp
    · cases b <;> simp [eq_comm]

/-- **C101**: the validator: a value which is no version is invalid, not an error. -/
theorem semvalidator_iff (a : Val E) (args : List (Val E)) (b : Bool) :
    semValidator L a args = some b ↔ if b then ∃ v, VersionOf L a v ∧ ∀ c ∈ args, Judges L v true c else
      (∀ v, ¬ VersionOf L a v) ∨ ∃ v, VersionOf L a v ∧ ∃ pre c post, args = pre ++ c :: post ∧ (∀ x ∈ pre, Judges L v true x) ∧ Judges L v false c := by
  simp only [semValidator, semCheck, ← constraints_false]
  simp only [← constraints_true, ← semParse_iff]
  rcases h : semParse L a with _ | v
  · cases b <;> simp
  · cases b <;> simp

/-! ### comparing and sorting -/

/-- **C101**: comparing two versions -/
theorem semcompare_iff (args : List (Val E)) (r : GoVal E) : semCompare L args = .ok r ↔ ∃ a b v w, args = [a, b] ∧ VersionOf L a v ∧ VersionOf L b w ∧ r = .int (L.compare v w) := by
  simp only [← semParse_iff]
  constructor
  · intro h
    match args with
    | [a, b] =>
      simp only [semCompare] at h
      split at h
      · cases h
      · rename_i v hv
        split at h
        · cases h
        · rename_i w hw
          cases h
          exact ⟨a, b, v, w, rfl, hv, hw, rfl⟩
    | [] => cases h
    | [_] => cases h
    | _ :: _ :: _ :: _ => cases h
  · rintro ⟨a, b, v, w, rfl, h1, h2, rfl⟩
    simp [semCompare, h1, h2]

/-- **C101** (disagreement with the documentation): the result of comparing versions is not an integer of the expressions: it is equal to no value, and not less
or greater than any. -/
theorem semcompare_lost [DecidableEq E] {args : List (Val E)} {r : GoVal E} (h : semCompare L args = .ok r) (x : GoVal E) :
    compareGo .eq r x ≠ .ok (.bool true) ∧ compareGo .lt r x = .ok (.bool false) ∧ compareGo .gt r x = .ok (.bool false) ∧
      compareGo .le r x = .ok (.bool false) ∧ compareGo .ge r x = .ok (.bool false) := by
  obtain ⟨a, b, v, w, -, -, -, rfl⟩ := (semcompare_iff L args r).1 h
  cases x with
  | int => simp [compareGo]
  | val x => cases x <;> simp [compareGo]

theorem versions_iff (items : List (Val E)) : ∀ vs, semVersions L items = some vs ↔ List.Forall₂ (VersionOf L) items vs := by
  induction items with
  | nil => intro vs; cases vs <;> simp [semVersions]
  | cons a r ih =>
    intro vs
    simp only [semVersions]
    rcases h : semParse L a with _ | v
    · simp only [reduceCtorEq, false_iff]
      intro hf
      cases hf with
      | cons h1 _ => rw [(semParse_iff L a _).2 h1] at h; cases h
    · simp only [Option.map_eq_some_iff, ih]
      constructor
      · rintro ⟨ws, h1, rfl⟩; exact .cons ((semParse_iff L a v).1 h) h1
      · intro hf
        cases hf with
        | cons h1 h2 =>
          rw [(semParse_iff L a _).2 h1] at h
          cases h
          exact ⟨_, h2, rfl⟩

/-- **C101**: sorting succeeds exactly if all values are versions. The result are the same texts in ascending order of the versions. -/
theorem semsort_spec (hs : SortLaw L) (ho : ∀ s v, L.parse s = some v → L.original v = s) (src : String) {args items : List (Val E)} (hi : SortItems args items) :
    ((∃ r, semSort L src args = .ok r) ↔ ∀ a ∈ items, ∃ v, VersionOf L a v) ∧
    ∀ r, semSort L src args = .ok r → ∃ ns ws, r = .list ns ∧ (ns.map Node.val).Perm items ∧ List.Forall₂ (VersionOf L) (ns.map Node.val) ws ∧
      ws.Pairwise (fun a b => L.compare a b ≤ 0) ∧ ∀ n ∈ ns, n.src = src := by
  have hd : semSort L src args = match semVersions L items with
      | none => .err
      | some vs => .ok (.list ((L.sort vs).map (fun v => Node.new (.str (L.original v)) src))) := by
    cases hi with
    | entries l => rfl
    | args _ h =>
      unfold semSort
      split
      · exact absurd rfl (h _)
      · rfl
  have hex : (∃ vs, semVersions L items = some vs) ↔ ∀ a ∈ items, ∃ v, VersionOf L a v := by
    simp only [versions_iff]
    clear hd hi
    induction items with
    | nil => simp
    | cons a r ih =>
      rw [List.forall_mem_cons, ← ih]
      constructor
      · rintro ⟨vs, h⟩
        cases h with
        | cons h1 h2 => exact ⟨⟨_, h1⟩, _, h2⟩
      · rintro ⟨⟨v, h1⟩, vs, h2⟩; exact ⟨_, .cons h1 h2⟩
  constructor
  · rw [← hex, hd]
    rcases semVersions L items with _ | vs <;> simp
  · intro r hr
    rw [hd] at hr
    rcases hv : semVersions L items with _ | vs
    · rw [hv] at hr; cases hr
    · rw [hv] at hr
      cases hr
      have hf := (versions_iff L items vs).1 hv
      have hmap : ∀ (its : List (Val E)) vs, List.Forall₂ (VersionOf L) its vs → its = vs.map (fun v => .str (L.original v)) := by
        intro its vs h
        induction h with
        | nil => rfl
        | cons h1 _ ih =>
          obtain ⟨s, rfl, h1⟩ := h1
          rw [List.map_cons, ← ih, ho _ _ h1]
      obtain ⟨h1, h2⟩ := hs vs
      refine ⟨_, L.sort vs, rfl, ?_, ?_, h2, ?_⟩
      · rw [List.map_map, hmap _ _ hf]
        exact h1.map _
      · rw [List.map_map]
        have hall : ∀ w ∈ vs, VersionOf L (.str (L.original w) : Val E) w := by
          intro w hw
          obtain ⟨a, -, s, rfl, hp⟩ := (show ∃ a ∈ items, VersionOf L a w from by
            clear hmap hex hd hv hi h1 h2
            induction hf with
            | nil => cases hw
            | cons g1 _ ih =>
              rcases List.mem_cons.1 hw with rfl | hw
              · exact ⟨_, by simp, g1⟩
              · obtain ⟨a, ha, hb⟩ := ih hw
                exact ⟨a, by simp [ha], hb⟩)
          exact ⟨_, rfl, by rw [ho _ _ hp]; exact hp⟩
        have hall' : ∀ w ∈ L.sort vs, VersionOf L (.str (L.original w) : Val E) w := fun w hw => hall w (h1.mem_iff.1 hw)
        generalize L.sort vs = ws at hall'
        induction ws with
        | nil => exact .nil
        | cons w ws ih => exact .cons (hall' w (by simp)) (ih (fun w hw => hall' w (by simp [hw])))
      · intro n hn
        obtain ⟨v, -, rfl⟩ := List.mem_map.1 hn
        rfl

/-! ### parts of versions -/

/-- the numbers of a version are shown by the functions -/
theorem semnumbers_iff (a : Val E) (v : V) (h : VersionOf L a v) : semMajor L [a] = .ok (.int (wrap64 (L.major v))) ∧ semMinor L [a] = .ok (.int (wrap64 (L.minor v))) ∧
    semPatch L [a] = .ok (.int (wrap64 (L.patch v))) ∧ semPrerelease L [a] = .ok (.str (L.prerelease v)) ∧ semMetadata L [a] = .ok (.str (L.metadata v)) ∧
    semNormalize L [a] = .ok (.str (L.text v)) := by
  have := (semParse_iff L a v).2 h
  simp [semMajor, semMinor, semPatch, semNormalize, semPrerelease, semMetadata, semGet, semGetSet, this]

/-- the arguments of a setter -/
theorem semset_iff (get : V → Val E) (set : V → String → Option V) (a x r : Val E) :
    semGetSet L get set [a, x] = .ok r ↔ ∃ v s w, VersionOf L a v ∧ x = .str s ∧ set v s = some w ∧ r = .str (L.original w) := by
  simp only [semGetSet, ← semParse_iff]
  rcases semParse L a with _ | v
  · simp
  · cases x <;> simp
    rename_i s
    rcases set v s with _ | w <;> simp [eq_comm]

variable {L}

theorem orNone_iff {r : V × Bool} {w : V} : orNone r = some w ↔ r = (w, true) := by
  obtain ⟨v, b⟩ := r
  cases b <;> simp [orNone]

/-- the functions show the same numbers -/
def ShowsNumbers (L : SemLib V) (r a : Val E) : Prop := semMajor L [r] = semMajor L [a] ∧ semMinor L [r] = semMinor L [a] ∧ semPatch L [r] = semPatch L [a]

theorem shows_numbers {r a : Val E} {w v : V} (hr : VersionOf L r w) (ha : VersionOf L a v) (h : SameNumbers L w v) : ShowsNumbers L r a := by
  obtain ⟨h1, h2, h3⟩ := h
  obtain ⟨r1, r2, r3, -⟩ := semnumbers_iff L r w hr
  obtain ⟨a1, a2, a3, -⟩ := semnumbers_iff L a v ha
  exact ⟨by rw [r1, a1, h1], by rw [r2, a2, h2], by rw [r3, a3, h3]⟩

/-- **C101**: setting the prerelease changes only the prerelease. -/
theorem semprerelease_set (hl : SemLaws L) {a x r : Val E} (h : semPrerelease L [a, x] = .ok r) :
    semPrerelease L [r] = .ok x ∧ semMetadata L [r] = semMetadata L [a] ∧ ShowsNumbers L r a := by
  obtain ⟨v, s, w, hv, rfl, hw, rfl⟩ := (semset_iff L _ _ _ _ _).1 h
  obtain ⟨h1, h2, h3, h4⟩ := hl.pre v s w (orNone_iff.1 hw)
  have hr : VersionOf L (.str (L.original w) : Val E) w := ⟨_, rfl, h1⟩
  obtain ⟨-, -, -, r4, r5, -⟩ := semnumbers_iff L _ w hr
  obtain ⟨-, -, -, -, a5, -⟩ := semnumbers_iff L a v hv
  exact ⟨by rw [r4, h2], by rw [r5, a5, h3], shows_numbers hr hv h4⟩

/-- **C101**: setting the metadata changes only the metadata. -/
theorem semmetadata_set (hl : SemLaws L) {a x r : Val E} (h : semMetadata L [a, x] = .ok r) :
    semMetadata L [r] = .ok x ∧ semPrerelease L [r] = semPrerelease L [a] ∧ ShowsNumbers L r a := by
  obtain ⟨v, s, w, hv, rfl, hw, rfl⟩ := (semset_iff L _ _ _ _ _).1 h
  obtain ⟨h1, h2, h3, h4⟩ := hl.build v s w (orNone_iff.1 hw)
  have hr : VersionOf L (.str (L.original w) : Val E) w := ⟨_, rfl, h1⟩
  obtain ⟨-, -, -, r4, r5, -⟩ := semnumbers_iff L _ w hr
  obtain ⟨-, -, -, a4, -, -⟩ := semnumbers_iff L a v hv
  exact ⟨by rw [r5, h2], by rw [r4, a4, h3], shows_numbers hr hv h4⟩

theorem set_parts (hl : SemLaws L) (n : V) {p m : String} (hp : ∀ v, (L.setPrerelease v p).2 = true) (hm : ∀ v, (L.setMetadata v m).2 = true) :
    let w := (L.setPrerelease (L.setMetadata n m).1 p).1
    L.parse (L.original w) = some w ∧ L.prerelease w = p ∧ L.metadata w = m ∧ SameNumbers L w n := by
  obtain ⟨-, g2, -, g4⟩ := hl.build n m _ (Prod.ext rfl (hm n))
  obtain ⟨h1, h2, h3, h4⟩ := hl.pre (L.setMetadata n m).1 p _ (Prod.ext rfl (hp _))
  exact ⟨h1, h2, h3.trans g2, h4.1.trans g4.1, h4.2.1.trans g4.2.1, h4.2.2.trans g4.2.2⟩

/-- **C101**: the release of a version: the same numbers, neither prerelease nor metadata. -/
theorem semrelease_get (hl : SemLaws L) {a : Val E} {v : V} (ha : VersionOf L a v) : ∃ r, semRelease L [a] = .ok r ∧
    semPrerelease L [r] = .ok (.str "") ∧ semMetadata L [r] = .ok (.str "") ∧ ShowsNumbers L r a := by
  have hp := (semParse_iff L a v).2 ha
  obtain ⟨h1, h2, h3, h4⟩ := set_parts hl v (fun v => (hl.clear v).1) (fun v => (hl.clear v).2)
  refine ⟨.str (L.original (L.setPrerelease (L.setMetadata v "").1 "").1), by simp only [semRelease, semGetSet, hp], ?_⟩
  have hr : VersionOf L (.str (L.original (L.setPrerelease (L.setMetadata v "").1 "").1) : Val E) _ := ⟨_, rfl, h1⟩
  obtain ⟨-, -, -, r4, r5, -⟩ := semnumbers_iff L _ _ hr
  exact ⟨by rw [r4, h2], by rw [r5, h3], shows_numbers hr ha h4⟩

/-- **C101**: setting the release: the numbers of the second version, with prerelease and metadata of the first one. -/
theorem semrelease_set (hl : SemLaws L) {a b : Val E} {v n : V} (ha : VersionOf L a v) (hb : VersionOf L b n) : ∃ r, semRelease L [a, b] = .ok r ∧
    semPrerelease L [r] = semPrerelease L [a] ∧ semMetadata L [r] = semMetadata L [a] ∧ ShowsNumbers L r b := by
  obtain ⟨h1, h2, h3, h4⟩ := set_parts hl n (p := L.prerelease v) (m := L.metadata v) (fun x => (hl.keep x v).1) (fun x => (hl.keep x v).2)
  obtain ⟨s, rfl, hs⟩ := id hb
  have hr : VersionOf L (.str (L.original (L.setPrerelease (L.setMetadata n (L.metadata v)).1 (L.prerelease v)).1) : Val E) _ := ⟨_, rfl, h1⟩
  obtain ⟨-, -, -, r4, r5, -⟩ := semnumbers_iff L _ _ hr
  obtain ⟨-, -, -, a4, a5, -⟩ := semnumbers_iff L a v ha
  refine ⟨_, (semset_iff L _ _ _ _ _).2 ⟨v, s, _, ha, rfl, by rw [hs]; rfl, rfl⟩, by rw [r4, a4, h2], by rw [r5, a5, h3], shows_numbers hr hb h4⟩

end

/-! ### a library with eight versions -/

/-- the major version is 1 or 2, the prerelease empty or `a`, the metadata empty or `b` -/
abbrev ToyVersion := Bool × Bool × Bool
def toyVersions : List ToyVersion := [(false, false, false), (false, false, true), (false, true, false), (false, true, true), (true, false, false), (true, false, true), (true, true, false), (true, true, true)]
def toyVersionText : ToyVersion → String
  | (m, p, b) => (if m then "2.0.0" else "1.0.0") ++ (if p then "-a" else "") ++ (if b then "+b" else "")
def toyVersionKey : ToyVersion → Int
  | (m, p, _) => (if m then 2 else 0) + (if p then 0 else 1)
def toySem : SemLib ToyVersion where
  parse s := toyVersions.find? (fun v => toyVersionText v = s)
  original := toyVersionText
  text := toyVersionText
  major v := if v.1 then 2 else 1
  minor := fun _ => 0
  patch := fun _ => 0
  prerelease v := if v.2.1 then "a" else ""
  metadata v := if v.2.2 then "b" else ""
  incMajor := fun _ => (true, false, false)
  incMinor := id
  incPatch := id
  setPrerelease v s := if s = "" then ((v.1, false, v.2.2), true) else if s = "a" then ((v.1, true, v.2.2), true) else (v, false)
  setMetadata v s := if s = "" then ((v.1, v.2.1, false), true) else if s = "b" then ((v.1, v.2.1, true), true) else (v, false)
  compare v w := toyVersionKey v - toyVersionKey w
  constraint s := if s = "2" then some (fun v => v.1) else if s = "-" then some (fun v => v.2.1) else none
  sort vs := vs.mergeSort (fun v w => decide (toyVersionKey v ≤ toyVersionKey w))

theorem toy_parse : ∀ v : ToyVersion, toySem.parse (toyVersionText v) = some v := by
  rintro ⟨m, p, b⟩
  revert m p b
  decide +kernel
theorem toy_reads (v : ToyVersion) : toySem.parse (toySem.original v) = some v := toy_parse v

theorem toy_laws : SemLaws toySem where
  original s v h := by
    have := List.find?_some h
    have h2 : toyVersionText v = s := by simpa using this
    exact h2
  pre v s w h := by
    simp only [toySem] at h
    by_cases h1 : s = ""
    · rw [if_pos h1] at h; cases h; subst h1; exact ⟨toy_reads _, rfl, rfl, rfl, rfl, rfl⟩
    · rw [if_neg h1] at h
      by_cases h2 : s = "a"
      · rw [if_pos h2] at h; cases h; subst h2; exact ⟨toy_reads _, rfl, rfl, rfl, rfl, rfl⟩
      · rw [if_neg h2] at h; cases h
  build v s w h := by
    simp only [toySem] at h
    by_cases h1 : s = ""
    · rw [if_pos h1] at h; cases h; subst h1; exact ⟨toy_reads _, rfl, rfl, rfl, rfl, rfl⟩
    · rw [if_neg h1] at h
      by_cases h2 : s = "b"
      · rw [if_pos h2] at h; cases h; subst h2; exact ⟨toy_reads _, rfl, rfl, rfl, rfl, rfl⟩
      · rw [if_neg h2] at h; cases h
  keep := by
    rintro ⟨m, p, b⟩ ⟨m', p', b'⟩
    revert m p b m' p' b'
    decide +kernel
  clear := by
    rintro ⟨m, p, b⟩
    revert m p b
    decide +kernel

theorem toy_sort : SortLaw toySem := by
  intro vs
  refine ⟨List.mergeSort_perm _ _, ?_⟩
  have := List.pairwise_mergeSort (le := fun v w => decide (toyVersionKey v ≤ toyVersionKey w)) (by intro a b c; simp; omega) (by intro a b; simp; omega) vs
  exact this.imp (fun h => by simp at h; simp only [toySem]; omega)

example : semMatch toySem [(.str "2.0.0-a" : Val Unit), .str "2", .str "-"] = .ok (.bool true) := by rfl
example : semMatch toySem [(.str "1.0.0-a" : Val Unit), .str "2", .str "x"] = .ok (.bool false) := by rfl
example : semMatch toySem [(.str "2.0.0-a" : Val Unit), .str "2", .str "x"] = .err := by rfl
example : semRelease toySem [(.str "2.0.0-a+b" : Val Unit), .str "1.0.0"] = .ok (.str "1.0.0-a+b") := by rfl
example : semSort toySem "f" [(.list [Node.new (.str "2.0.0") "g", Node.new (.str "1.0.0+b") "g", Node.new (.str "2.0.0-a") "g"] : Val Unit)] =
    .ok (.list [Node.new (.str "1.0.0+b") "f", Node.new (.str "2.0.0-a") "f", Node.new (.str "2.0.0") "f"]) := by
  have h1 : semSort toySem "f" [(.list [Node.new (.str "2.0.0") "g", Node.new (.str "1.0.0+b") "g", Node.new (.str "2.0.0-a") "g"] : Val Unit)] =
      .ok (.list ((toySem.sort [(true, false, false), (false, false, true), (true, true, false)]).map (fun v => Node.new (.str (toySem.original v)) "f"))) := by rfl
  have h2 : toySem.sort [(true, false, false), (false, false, true), (true, true, false)] = [(false, false, true), (true, true, false), (true, false, false)] := by
    simp [toySem, List.mergeSort, List.MergeSort.Internal.splitInTwo, toyVersionKey, List.merge]
  rw [h1, h2]
  rfl
/-- 1.0.0 is before 2.0.0, but the result is not less than 0 -/
example : ∃ r, semCompare toySem [(.str "1.0.0" : Val Unit), .str "2.0.0"] = .ok r ∧ compareGo .lt r (.val (.int 0)) = .ok (.bool false) := ⟨_, rfl, rfl⟩

end Spiff
