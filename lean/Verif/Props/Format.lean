import Verif.Spec.Format
/-
C108: formatted texts and errors.
-/
namespace Spiff
open Spec

section
variable {E : Type} (L : FmtLib E)

theorem fmtArg_iff (v w : Val E) : fmtArg L v = some w ↔ Passed L v w := by
  constructor
  · intro h
    cases v with
    | list l => simp only [fmtArg, Option.map_eq_some_iff] at h; obtain ⟨s, hy, rfl⟩ := h; exact .list hy
    | map m => simp only [fmtArg, Option.map_eq_some_iff] at h; obtain ⟨s, hy, rfl⟩ := h; exact .map hy
    | templ n => simp only [fmtArg, Option.map_eq_some_iff] at h; obtain ⟨s, hy, rfl⟩ := h; exact .templ hy
    | _ => cases h; constructor
  · intro h
    cases h <;> simp_all [fmtArg]

theorem fmtArg_cases (v : Val E) : (∃ w, fmtArg L v = some w) ∨ (fmtArg L v = none ∧ Unpassable L v) := by
  cases h : fmtArg L v with
  | some w => exact .inl ⟨w, rfl⟩
  | none => exact .inr ⟨rfl, fun w hw => by rw [← fmtArg_iff, h] at hw; cases hw⟩

theorem fmtArgs_cases (l : List (Val E)) : (∃ xs, fmtArgs L l = some xs ∧ List.Forall₂ (Passed L) l xs) ∨ (fmtArgs L l = none ∧ ∃ v ∈ l, Unpassable L v) := by
  induction l with
  | nil => exact .inl ⟨[], rfl, .nil⟩
  | cons a r ih =>
    rw [fmtArgs]
    rcases fmtArg_cases L a with ⟨w, hw⟩ | ⟨hp, hu⟩
    · rw [hw]
      rcases ih with ⟨xs, h1, h2⟩ | ⟨h1, v, hv, hu⟩
      · simp only [h1]; exact .inl ⟨_, rfl, .cons ((fmtArg_iff L a w).1 hw) h2⟩
      · simp only [h1]; exact .inr ⟨trivial, v, List.mem_cons_of_mem _ hv, hu⟩
    · rw [hp]; exact .inr ⟨rfl, a, by simp, hu⟩

theorem passed_unique {v w w' : Val E} (h : Passed L v w) (h' : Passed L v w') : w = w' := by
  rw [← fmtArg_iff] at h h'
  rw [h] at h'
  cases h'
  rfl

theorem passed_all_unique {l xs xs' : List (Val E)} (h : List.Forall₂ (Passed L) l xs) (h' : List.Forall₂ (Passed L) l xs') : xs = xs' := by
  induction h generalizing xs' with
  | nil => cases h'; rfl
  | cons h1 _ ih => cases h' with
    | cons h3 h4 => rw [passed_unique L h1 h3, ih h4]

theorem all_passable {l xs : List (Val E)} (h : List.Forall₂ (Passed L) l xs) : ∀ v ∈ l, ¬ Unpassable L v := by
  induction h with
  | nil => intro v hv; cases hv
  | cons h1 _ ih =>
    intro v hv hu
    rcases List.mem_cons.1 hv with rfl | hv
    · exact hu _ h1
    · exact ih v hv hu

theorem formatText_undet (args : List (Val E)) : formatText L args ≠ .undet := by
  unfold formatText
  cases args with
  | nil => intro h; cases h
  | cons a r =>
    simp only
    rcases fmtArgs_cases L (a :: r) with ⟨xs, h1, -⟩ | ⟨h1, -⟩
    · rw [h1]; intro h; split at h <;> cases h
    · rw [h1]; intro h; cases h

theorem formatText_iff (args : List (Val E)) (t : String) : formatText L args = .ok t ↔ Formats L args t := by
  unfold formatText Formats
  cases args with
  | nil => constructor <;> [(intro h; cases h); (rintro ⟨_, _, _, h, _⟩; cases h)]
  | cons a r =>
    simp only
    rcases fmtArgs_cases L (a :: r) with ⟨xs, h1, h2⟩ | ⟨h1, v, hv, hu⟩
    · rw [h1]
      cases h2 with
      | @cons _ w _ ws h3 h4 =>
        constructor
        · intro h
          split at h <;> cases h
          rename_i heq
          injection heq with heq
          injection heq with e1 e2
          subst e1; subst e2
          exact ⟨a, r, _, rfl, _, h3, h4, rfl⟩
        · rintro ⟨f, rest, xs, h5, s, h6, h7, rfl⟩
          cases h5
          rw [passed_unique L h3 h6, passed_all_unique L h4 h7]
    · rw [h1]
      constructor
      · intro h; cases h
      · rintro ⟨f, rest, xs, h5, s, h6, h7, rfl⟩
        exfalso
        cases h5
        exact all_passable L (.cons h6 h7) v hv hu

theorem formatText_panic (args : List (Val E)) : formatText L args = .panic ↔ ∃ v ∈ args, Unpassable L v := by
  unfold formatText
  cases args with
  | nil => simp
  | cons a r =>
    simp only
    rcases fmtArgs_cases L (a :: r) with ⟨xs, h1, h2⟩ | ⟨h1, v, hv, hu⟩
    · rw [h1]
      constructor
      · intro h
        split at h <;> cases h
        rename_i h
        cases h
      · rintro ⟨v, hv, hu⟩
        exact absurd hu (all_passable L h2 v hv)
    · rw [h1]
      exact ⟨fun _ => ⟨v, hv, hu⟩, fun _ => rfl⟩

/-- **C108**: `format` yields the text of Sprintf for the arguments passed. -/
theorem format_iff (args : List (Val E)) (r : Val E) : funcFormat L args = .ok r ↔ ∃ t, Formats L args t ∧ r = .str t := by
  unfold funcFormat
  simp only [← formatText_iff]
  cases formatText L args <;> simp [eq_comm]

/-- **C108**: the program ends exactly if an argument has no YAML text. -/
theorem format_ends (args : List (Val E)) : funcFormat L args = .panic ↔ ∃ v ∈ args, Unpassable L v := by
  rw [← formatText_panic]
  unfold funcFormat
  cases formatText L args <;> simp

/-- **C108**: `error` raises an error whose message is the text of `format` for the same arguments, and fails if it fails. -/
theorem error_message (args : List (Val E)) :
    (∀ t, funcError L args = .message t ↔ Formats L args t) ∧
    (funcError L args = .wrongCall ↔ funcFormat L args = .err) ∧ (funcError L args = .exit ↔ ∃ v ∈ args, Unpassable L v) := by
  rw [← format_ends]
  simp only [← formatText_iff]
  have hu := formatText_undet L args
  unfold funcError funcFormat
  cases h : formatText L args <;> simp_all

/-- **C108**: the format may also be a list, a map, a template or a lambda: its text is the format. Other formats and calls without arguments are errors. -/
theorem format_fails (args : List (Val E)) (h : ∀ v ∈ args, ¬ Unpassable L v) :
    funcFormat L args = .err ↔ ∀ f, args.head? = some f → ∀ s, ¬ Passed L f (.str s) := by
  constructor
  · intro he f hf s hp
    cases args with
    | nil => cases hf
    | cons a r =>
      simp only [List.head?_cons, Option.some.injEq] at hf
      subst hf
      rcases fmtArgs_cases L (a :: r) with ⟨xs, h1, h2⟩ | ⟨-, v, hv, hu⟩
      · cases h2 with
        | cons h3 h4 =>
          have : funcFormat L (a :: r) = .ok (.str (L.sprintf s _)) := (format_iff L _ _).2 ⟨_, ⟨a, r, _, rfl, s, hp, h4, rfl⟩, rfl⟩
          rw [he] at this
          cases this
      · exact absurd hu (h v hv)
  · intro hn
    cases hr : funcFormat L args with
    | err => rfl
    | ok r =>
      obtain ⟨t, ⟨f, rest, xs, rfl, s, hp, -⟩, -⟩ := (format_iff L _ _).1 hr
      exact absurd hp (hn f rfl s)
    | undet =>
      have hu := formatText_undet L args
      unfold funcFormat at hr
      cases ht : formatText L args <;> rw [ht] at hr <;> first | exact absurd ht hu | cases hr
    | panic =>
      obtain ⟨v, hv, hu⟩ := (format_ends L _).1 hr
      exact absurd hu (h v hv)

/-- a library showing the number of arguments -/
def toyFmt : FmtLib Unit where
  sprintf f xs := f ++ toString xs.length
  yaml v := match v with
    | .list [] => some "[]"
    | _ => none
  templ _ := none
  lambda s := s

/-- calls: a text, a list as format, a number as format, a value without text -/
theorem toy_format : funcFormat toyFmt [.str "a", .int 1, .list []] = .ok (.str "a2") ∧ funcFormat toyFmt [.list [], .int 1] = .ok (.str "[]1") ∧
    funcFormat toyFmt [.int 1] = .err ∧ funcFormat toyFmt [.str "a", .map []] = .panic ∧ funcError toyFmt [.str "a"] = .message "a0" := by
  refine ⟨?_, ?_, ?_, ?_, ?_⟩ <;> rfl

end
end Spiff
