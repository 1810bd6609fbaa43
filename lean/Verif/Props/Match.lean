import Verif.Spec.Match
/-
C104: the function `match`.
-/
namespace Spiff
open Spec

section
variable {R E : Type} (L : RegLib R)

theorem matchElem_iff (a : Val E) (t : String) : matchElem a = some t ↔ MatchText a t := by
  constructor
  · intro h
    cases a <;> simp [matchElem] at h
    · rename_i b; subst h; cases b <;> constructor
    · subst h; constructor
    · subst h; constructor
  · intro h; cases h <;> rfl

theorem funcMatch_step (p a : Val E) (more : List (Val E)) : funcMatch L (p :: a :: more) =
    if more.length > 1 then .err
    else match p with
      | .str s => match a with
        | .nil => .ok (.bool false)
        | a => match matchCount more with
          | none => .err
          | some occ => match matchElem a with
            | none => .err
            | some t => matchFind L s t occ
      | _ => .err := rfl

theorem matchTexts_list (l : List String) : TextList l (.list (matchTexts l) : Val E) :=
  ⟨_, rfl, by simp only [matchTexts, List.map_map]; rfl⟩

theorem matchTexts_all (ms : List (List String)) : MatchList ms (.list (ms.map (fun m => Node.new (.list (matchTexts m)) "")) : Val E) := by
  refine ⟨_, rfl, ?_⟩
  induction ms with
  | nil => exact .nil
  | cons m r ih => exact .cons (matchTexts_list m) ih

/-- **C104**: a call for a value other than nil which succeeds yields the matches asked for. -/
theorem match_answers {ms : R → String → List (List String)} (hL : RegLaws L ms) (p a : Val E) (more : List (Val E)) (ha : a ≠ .nil) (r : Val E)
    (h : funcMatch L (p :: a :: more) = .ok r) :
    ∃ s re t k, p = .str s ∧ L.compile s = some re ∧ MatchText a t ∧ MatchAsked more k ∧ MatchAnswer (ms re t) k r := by
  rw [funcMatch_step] at h
  split at h
  · cases h
  · rename_i hlen
    split at h
    · rename_i s
      split at h
      · exact absurd rfl ha
      · split at h
        · cases h
        · rename_i occ hocc
          split at h
          · cases h
          · rename_i t ht
            unfold matchFind at h
            split at h
            · cases h
            · rename_i re hre
              rw [matchElem_iff] at ht
              have hc : (occ = 0 ∧ more = []) ∨ (occ ≠ 0 ∧ ∃ k, MatchAsked more k ∧ ((∃ n : Nat, occ = n ∧ k = .upTo n) ∨ (occ < 0 ∧ k = .every))) := by
                match more, hocc, hlen with
                | [], hocc, _ => simp [matchCount] at hocc; exact .inl ⟨hocc.symm, rfl⟩
                | [.int n], hocc, _ =>
                  simp only [matchCount] at hocc
                  split at hocc
                  · cases hocc
                  · rename_i hn
                    injection hocc with hocc
                    subst hocc
                    refine .inr ⟨hn, ?_⟩
                    rcases Int.lt_trichotomy n 0 with h | h | h
                    · exact ⟨_, .negative n h, .inr ⟨h, rfl⟩⟩
                    · exact absurd h hn
                    · obtain ⟨m, rfl⟩ := Int.eq_ofNat_of_zero_le (Int.le_of_lt h)
                      exact ⟨_, .count m (by omega), .inl ⟨m, rfl, rfl⟩⟩
                | [.bool b], hocc, _ =>
                  simp only [matchCount, Option.some.injEq] at hocc
                  cases b
                  · subst hocc; exact .inr ⟨by decide, _, .no, .inl ⟨1, rfl, rfl⟩⟩
                  · subst hocc; exact .inr ⟨by decide, _, .yes, .inr ⟨by decide, rfl⟩⟩
                | [.nil], hocc, _ => cases hocc
                | [.str _], hocc, _ => cases hocc
                | [.float _], hocc, _ => cases hocc
                | [.list _], hocc, _ => cases hocc
                | [.map _], hocc, _ => cases hocc
                | [.templ _], hocc, _ => cases hocc
                | [.lambda _], hocc, _ => cases hocc
                | [.expr _], hocc, _ => cases hocc
                | _ :: _ :: _, _, hlen => simp at hlen
              rcases hc with ⟨rfl, rfl⟩ | ⟨h0, k, hk, hk'⟩
              · simp only [if_true, Out.ok.injEq] at h
                subst h
                refine ⟨s, re, t, _, rfl, hre, ht, .none, ?_⟩
                rw [hL.first]
                exact matchTexts_list _
              · rw [if_neg h0] at h
                cases h
                refine ⟨s, re, t, k, rfl, hre, ht, hk, ?_⟩
                rcases hk' with ⟨n, rfl, rfl⟩ | ⟨hneg, rfl⟩
                · rw [hL.count]; exact matchTexts_all _
                · rw [hL.all _ _ _ hneg]; exact matchTexts_all _
    · cases h


/-- **C104**: a call succeeds if the pattern is a regular expression, the value a text, number or boolean and the third argument, if given, a number other than 0 or a boolean. -/
theorem match_succeeds (p a : Val E) (more : List (Val E)) (ha : a ≠ .nil) :
    (∃ r, funcMatch L (p :: a :: more) = .ok r) ↔
      ∃ s re t k, p = .str s ∧ L.compile s = some re ∧ MatchText a t ∧ MatchAsked more k := by
  constructor
  · rintro ⟨r, h⟩
    rw [funcMatch_step] at h
    split at h
    · cases h
    · rename_i hlen
      split at h
      · rename_i s
        split at h
        · exact absurd rfl ha
        · split at h
          · cases h
          · rename_i occ hocc
            split at h
            · cases h
            · rename_i t ht
              unfold matchFind at h
              split at h
              · cases h
              · rename_i re hre
                rw [matchElem_iff] at ht
                suffices hk : ∃ k, MatchAsked more k by
                  obtain ⟨k, hk⟩ := hk
                  exact ⟨s, re, t, k, rfl, hre, ht, hk⟩
                match more, hocc, hlen with
                | [], _, _ => exact ⟨_, .none⟩
                | [.int n], hocc, _ =>
                  simp only [matchCount] at hocc
                  split at hocc
                  · cases hocc
                  · rename_i hn
                    rcases Int.lt_trichotomy n 0 with h | h | h
                    · exact ⟨_, .negative n h⟩
                    · exact absurd h hn
                    · obtain ⟨m, rfl⟩ := Int.eq_ofNat_of_zero_le (Int.le_of_lt h)
                      exact ⟨_, .count m (by omega)⟩
                | [.bool true], _, _ => exact ⟨_, .yes⟩
                | [.bool false], _, _ => exact ⟨_, .no⟩
                | [.nil], hocc, _ => cases hocc
                | [.str _], hocc, _ => cases hocc
                | [.float _], hocc, _ => cases hocc
                | [.list _], hocc, _ => cases hocc
                | [.map _], hocc, _ => cases hocc
                | [.templ _], hocc, _ => cases hocc
                | [.lambda _], hocc, _ => cases hocc
                | [.expr _], hocc, _ => cases hocc
                | _ :: _ :: _, _, hlen => simp at hlen
      · cases h
  · rintro ⟨s, re, t, k, rfl, hre, ht, hk⟩
    have hl : ¬ more.length > 1 := by cases hk <;> simp
    have ho : ∃ occ, matchCount more = some occ := by
      cases hk with
      | none => exact ⟨_, rfl⟩
      | count n h => exact ⟨n, by simp only [matchCount]; rw [if_neg (by omega)]⟩
      | negative i h => exact ⟨i, by simp only [matchCount]; rw [if_neg (by omega)]⟩
      | yes => exact ⟨_, rfl⟩
      | no => exact ⟨_, rfl⟩
    obtain ⟨occ, ho⟩ := ho
    rw [← matchElem_iff] at ht
    rw [funcMatch_step]
    rw [if_neg hl]
    simp only [ho, ht, matchFind, hre]
    cases a <;> first | exact absurd rfl ha | (by_cases h0 : occ = 0 <;> simp [h0])

/-- **C104**: nil matches nothing, whatever the pattern and the number of matches. -/
theorem match_nil (p : Val E) (more : List (Val E)) (r : Val E) :
    funcMatch L (p :: .nil :: more) = .ok r ↔ (∃ s, p = .str s) ∧ more.length ≤ 1 ∧ r = .bool false := by
  rw [funcMatch_step]
  split
  · rename_i h
    simp; omega
  · rename_i h
    cases p <;> simp [eq_comm]
    omega

/-- **C104**: other numbers of arguments are errors. -/
theorem match_arguments (args : List (Val E)) (h : args.length < 2 ∨ 3 < args.length) : funcMatch L args = .err := by
  match args, h with
  | [], _ => rfl
  | [_], _ => rfl
  | p :: a :: more, h =>
    rw [funcMatch_step]
    rw [if_pos]
    simp only [List.length_cons] at h
    omega

/-- **C104**: a larger number of matches extends the list. -/
theorem match_more {ms : R → String → List (List String)} (hL : RegLaws L ms) (p a : Val E) (m n : Nat) (hm : 0 < m) (hn : m ≤ n) (l : List (Node E))
    (h : funcMatch L [p, a, .int n] = .ok (.list l)) : funcMatch L [p, a, .int m] = .ok (.list (l.take m)) := by
  have hc : ∀ k : Nat, 0 < k → matchCount [(.int k : Val E)] = some (k : Int) := fun k hk => by simp only [matchCount]; rw [if_neg (by omega)]
  have hs : ∀ (k : Nat) (s : String) (t : String) (b : Val E), b ≠ .nil → 0 < k → matchElem b = some t → funcMatch L [.str s, b, .int k] = matchFind L s t k := by
    intro k s t b hb hk ht
    rw [funcMatch_step, if_neg (by simp)]
    simp only [hc k hk, ht]
  have hp : ∃ s, p = .str s := by
    rw [funcMatch_step, if_neg (by simp)] at h
    cases p <;> first | exact ⟨_, rfl⟩ | cases h
  obtain ⟨s, rfl⟩ := hp
  have ha : a ≠ .nil := by rintro rfl; cases h
  have ht : ∃ t, matchElem a = some t := by
    rw [funcMatch_step, if_neg (by simp)] at h
    simp only [hc n (by omega)] at h
    cases hx : matchElem a with
    | some t => exact ⟨t, rfl⟩
    | none => cases a <;> first | exact absurd rfl ha | (rw [hx] at h; cases h)
  obtain ⟨t, ht⟩ := ht
  rw [hs n s t a ha (by omega) ht] at h
  rw [hs m s t a ha hm ht]
  unfold matchFind at h ⊢
  split at h
  · cases h
  · rw [if_neg (by omega : ¬ (n : Int) = 0)] at h
    rw [if_neg (by omega : ¬ (m : Int) = 0)]
    cases h
    rw [hL.count, hL.count, ← List.map_take, List.take_take, Nat.min_eq_left hn]

/-- a library whose patterns are single characters, matched by themselves, with one group for the rest of the text -/
def toyReg : RegLib Char :=
  let ms : Char → String → List (List String) := fun c t => (t.toList.filter (· == c)).map (fun _ => [c.toString, t])
  { compile := fun s => match s.toList with
      | [c] => some c
      | _ => none
    first := fun c t => (ms c t).headD []
    find := fun c t i => if i < 0 then ms c t else (ms c t).take i.toNat }

/-- the laws are met -/
theorem toy_reg_laws : RegLaws toyReg (fun c t => (t.toList.filter (· == c)).map (fun _ => [c.toString, t])) where
  first := fun _ _ => rfl
  count := fun re t n => by simp [toyReg]; omega
  all := fun re t i h => by simp [toyReg]; omega

/-- calls with two matches -/
theorem toy_match : (funcMatch (E := Unit) toyReg [.str "a", .str "aba"] = .ok (.list [.new (.str "a") "", .new (.str "aba") ""])) ∧
    (∃ n : Node Unit, funcMatch (E := Unit) toyReg [.str "a", .str "aba", .int 5] = .ok (.list [n, n])) ∧
    (∃ n : Node Unit, funcMatch (E := Unit) toyReg [.str "a", .str "aba", .bool false] = .ok (.list [n])) ∧
    funcMatch (E := Unit) toyReg [.str "a", .str "aba", .int 0] = .err := ⟨rfl, ⟨_, rfl⟩, ⟨_, rfl⟩, rfl⟩

end
end Spiff
