import Verif.Model.Peg
/-
General facts about parsing expression grammars: at most one result, the matched text is the consumed text, and a result for every
text if the grammar is well-formed (no left recursion, no repetition of an empty match).
-/
namespace Spiff
variable {R : Type}

theorem parses_unique {g : R → Peg R} {p : Peg R} {s : List Char} {r1 : PRes R} (h1 : Parses g p s r1) :
    ∀ {r2 : PRes R}, Parses g p s r2 → r1 = r2 := by
  induction h1 with
  | eps s => intro r2 h; cases h; rfl
  | any_ok c s => intro r2 h; cases h; rfl
  | any_end => intro r2 h; cases h; rfl
  | chr_ok c s => intro r2 h; cases h with
    | chr_ok => rfl
    | chr_no h => exact absurd rfl h
  | chr_no hne => intro r2 h; cases h with
    | chr_ok => exact absurd rfl hne
    | chr_no h => rfl
  | chr_end c => intro r2 h; cases h; rfl
  | rng_ok hr => intro r2 h; cases h with
    | rng_ok => rfl
    | rng_no h => exact absurd hr h
  | rng_no hr => intro r2 h; cases h with
    | rng_ok h => exact absurd h hr
    | rng_no h => rfl
  | rng_end lo hi => intro r2 h; cases h; rfl
  | seq_ok _ _ ih1 ih2 => intro r2 h; cases h with
    | seq_ok h1 h2 =>
      have e := ih1 h1; simp only [Option.some.injEq, Prod.mk.injEq] at e
      obtain ⟨rfl, rfl, rfl⟩ := e
      have e := ih2 h2; simp only [Option.some.injEq, Prod.mk.injEq] at e
      obtain ⟨rfl, rfl, rfl⟩ := e; rfl
    | seq_no1 h1 => exact absurd (ih1 h1) (by simp)
    | seq_no2 h1 h2 =>
      have e := ih1 h1; simp only [Option.some.injEq, Prod.mk.injEq] at e
      obtain ⟨rfl, rfl, rfl⟩ := e
      exact absurd (ih2 h2) (by simp)
  | seq_no1 _ ih1 => intro r2 h; cases h with
    | seq_ok h1 h2 => exact absurd (ih1 h1) (by simp)
    | seq_no1 h1 => rfl
    | seq_no2 h1 h2 => rfl
  | seq_no2 _ _ ih1 ih2 => intro r2 h; cases h with
    | seq_ok h1 h2 =>
      have e := ih1 h1; simp only [Option.some.injEq, Prod.mk.injEq] at e
      obtain ⟨rfl, rfl, rfl⟩ := e
      exact absurd (ih2 h2) (by simp)
    | seq_no1 h1 => rfl
    | seq_no2 h1 h2 => rfl
  | alt1 _ ih => intro r2 h; cases h with
    | alt1 h => exact ih h
    | alt2 h1 h2 => exact absurd (ih h1) (by simp)
  | alt2 _ _ ih1 ih2 => intro r2 h; cases h with
    | alt1 h => exact absurd (ih1 h) (by simp)
    | alt2 h1 h2 => exact ih2 h2
  | star_end _ ih => intro r2 h; cases h with
    | star_end h => rfl
    | star_more h1 h2 => exact absurd (ih h1) (by simp)
  | star_more _ _ ih1 ih2 => intro r2 h; cases h with
    | star_end h => exact absurd (ih1 h) (by simp)
    | star_more h1 h2 =>
      have e := ih1 h1; simp only [Option.some.injEq, Prod.mk.injEq] at e
      obtain ⟨rfl, rfl, rfl⟩ := e
      have e := ih2 h2; simp only [Option.some.injEq, Prod.mk.injEq] at e
      obtain ⟨rfl, rfl, rfl⟩ := e; rfl
  | neg_ok _ ih => intro r2 h; cases h with
    | neg_ok => rfl
    | neg_no h => exact absurd (ih h) (by simp)
  | neg_no _ ih => intro r2 h; cases h with
    | neg_ok h => exact absurd (ih h) (by simp)
    | neg_no h => rfl
  | nt_ok _ ih => intro r2 h; cases h with
    | nt_ok h =>
      have e := ih h; simp only [Option.some.injEq, Prod.mk.injEq] at e
      obtain ⟨rfl, rfl, rfl⟩ := e; rfl
    | nt_no h => exact absurd (ih h) (by simp)
  | nt_no _ ih => intro r2 h; cases h with
    | nt_ok h => exact absurd (ih h) (by simp)
    | nt_no h => rfl

theorem parses_text_aux {g : R → Peg R} {p : Peg R} {s : List Char} {r : PRes R} (h : Parses g p s r) :
    ∀ {t c rest}, r = some (t, c, rest) → s = c ++ rest := by
  induction h with
  | any_ok | chr_ok | rng_ok =>
    intro t c rest e; simp only [Option.some.injEq, Prod.mk.injEq] at e; obtain ⟨-, rfl, rfl⟩ := e; rfl
  | any_end | chr_no | chr_end | rng_no | rng_end | seq_no1 | seq_no2 | neg_no | nt_no => intro t c rest e; cases e
  | eps | star_end | neg_ok =>
    intro t c rest e; simp only [Option.some.injEq, Prod.mk.injEq] at e; obtain ⟨-, rfl, rfl⟩ := e; rfl
  | seq_ok _ _ ih1 ih2 | star_more _ _ ih1 ih2 =>
    intro t c rest e; simp only [Option.some.injEq, Prod.mk.injEq] at e; obtain ⟨-, rfl, rfl⟩ := e
    rw [ih1 rfl, ih2 rfl, List.append_assoc]
  | alt1 _ ih => intro t c rest e; exact ih e
  | alt2 _ _ _ ih => intro t c rest e; exact ih e
  | nt_ok _ ih => intro t c rest e; simp only [Option.some.injEq, Prod.mk.injEq] at e; obtain ⟨-, rfl, rfl⟩ := e; exact ih rfl

theorem parses_text {g : R → Peg R} {p : Peg R} {s : List Char} {t c rest} (h : Parses g p s (some (t, c, rest))) :
    s = c ++ rest := parses_text_aux h rfl

/-- may match the empty text (an upper bound; `nl` for the rules) -/
def Peg.nullable (nl : R → Bool) : Peg R → Bool
  | .eps => true
  | .any => false
  | .chr _ => false
  | .rng _ _ => false
  | .seq a b => a.nullable nl && b.nullable nl
  | .alt a b => a.nullable nl || b.nullable nl
  | .star _ => true
  | .neg _ => true
  | .nt r => nl r

/-- every rule that can be entered before a character has been consumed has a rank below `k`; nothing empty is repeated -/
def Peg.guarded (nl : R → Bool) (rank : R → Nat) (k : Nat) : Peg R → Bool
  | .eps => true
  | .any => true
  | .chr _ => true
  | .rng _ _ => true
  | .seq a b => a.guarded nl rank k && (if a.nullable nl then b.guarded nl rank k else true)
  | .alt a b => a.guarded nl rank k && b.guarded nl rank k
  | .star a => a.guarded nl rank k && !a.nullable nl
  | .neg a => a.guarded nl rank k
  | .nt r => decide (rank r < k)

/-- nothing empty is repeated anywhere -/
def Peg.noEmptyLoop (nl : R → Bool) : Peg R → Bool
  | .seq a b => a.noEmptyLoop nl && b.noEmptyLoop nl
  | .alt a b => a.noEmptyLoop nl && b.noEmptyLoop nl
  | .star a => a.noEmptyLoop nl && !a.nullable nl
  | .neg a => a.noEmptyLoop nl
  | _ => true

/-- A well-formed grammar. -/
structure PegWellFormed (g : R → Peg R) (nl : R → Bool) (rank : R → Nat) (K : Nat) : Prop where
  nullable : ∀ r, (g r).nullable nl = true → nl r = true
  guarded : ∀ r, (g r).guarded nl rank (rank r) = true
  loops : ∀ r, (g r).noEmptyLoop nl = true
  bound : ∀ r, rank r < K

theorem nullable_of_empty {g : R → Peg R} {nl : R → Bool} (hn : ∀ r, (g r).nullable nl = true → nl r = true)
    {p : Peg R} {s : List Char} {r : PRes R} (h : Parses g p s r) :
    ∀ {t rest}, r = some (t, [], rest) → p.nullable nl = true := by
  induction h with
  | eps | star_end | neg_ok => intros; rfl
  | any_ok | chr_ok | rng_ok => intro t rest e; simp at e
  | any_end | chr_no | chr_end | rng_no | rng_end | seq_no1 | seq_no2 | neg_no | nt_no => intro t rest e; cases e
  | seq_ok _ _ ih1 ih2 =>
    intro t rest e
    simp only [Option.some.injEq, Prod.mk.injEq, List.append_eq_nil_iff] at e
    obtain ⟨-, ⟨rfl, rfl⟩, rfl⟩ := e
    simp [Peg.nullable, ih1 rfl, ih2 rfl]
  | star_more => intros; rfl
  | alt1 _ ih => intro t rest e; simp [Peg.nullable, ih e]
  | alt2 _ _ _ ih => intro t rest e; simp [Peg.nullable, ih e]
  | nt_ok _ ih =>
    intro t rest e
    simp only [Option.some.injEq, Prod.mk.injEq] at e
    obtain ⟨-, rfl, rfl⟩ := e
    exact hn _ (ih rfl)

theorem guarded_mono {nl : R → Bool} {rank : R → Nat} {k k' : Nat} (hk : k ≤ k') : ∀ {p : Peg R}, p.guarded nl rank k = true →
    p.guarded nl rank k' = true := by
  intro p
  induction p with
  | seq a b iha ihb =>
    simp only [Peg.guarded, Bool.and_eq_true]
    rintro ⟨h1, h2⟩
    refine ⟨iha h1, ?_⟩
    split at h2
    · rename_i h; rw [if_pos h]; exact ihb h2
    · rename_i h; rw [if_neg h]
  | alt a b iha ihb =>
    simp only [Peg.guarded, Bool.and_eq_true]
    exact fun ⟨h1, h2⟩ => ⟨iha h1, ihb h2⟩
  | star a iha =>
    simp only [Peg.guarded, Bool.and_eq_true]
    exact fun ⟨h1, h2⟩ => ⟨iha h1, h2⟩
  | neg a iha => exact iha
  | nt r =>
    simp only [Peg.guarded, decide_eq_true_eq]
    omega
  | _ => intro; rfl

/-- All rules are allowed at the beginning if the bound is large enough. -/
theorem guarded_of_loops {nl : R → Bool} {rank : R → Nat} {K : Nat} (hb : ∀ r, rank r < K) : ∀ {p : Peg R},
    p.noEmptyLoop nl = true → p.guarded nl rank K = true := by
  intro p
  induction p with
  | seq a b iha ihb =>
    simp only [Peg.guarded, Peg.noEmptyLoop, Bool.and_eq_true]
    rintro ⟨h1, h2⟩
    refine ⟨iha h1, ?_⟩
    split
    · exact ihb h2
    · rfl
  | alt a b iha ihb =>
    simp only [Peg.guarded, Peg.noEmptyLoop, Bool.and_eq_true]
    exact fun ⟨h1, h2⟩ => ⟨iha h1, ihb h2⟩
  | star a iha =>
    simp only [Peg.guarded, Peg.noEmptyLoop, Bool.and_eq_true]
    exact fun ⟨h1, h2⟩ => ⟨iha h1, h2⟩
  | neg a iha => exact iha
  | nt r => intro; simp [Peg.guarded, hb]
  | _ => intro; rfl

/-- The parser terminates for every text: every well-formed grammar has a result everywhere. -/
theorem parses_total {g : R → Peg R} {nl : R → Bool} {rank : R → Nat} {K : Nat} (wf : PegWellFormed g nl rank K) :
    ∀ (n : Nat) (k : Nat) (p : Peg R), p.guarded nl rank k = true → p.noEmptyLoop nl = true →
      ∀ (s : List Char), s.length = n → ∃ r, Parses g p s r := by
  intro n
  induction n using Nat.strongRecOn with
  | _ n ihn =>
  intro k
  induction k using Nat.strongRecOn with
  | _ k ihk =>
  have short : ∀ (p : Peg R), p.noEmptyLoop nl = true → ∀ s' : List Char, s'.length < n → ∃ r, Parses g p s' r :=
    fun p hl s' hs => ihn _ hs K p (guarded_of_loops wf.bound hl) hl s' rfl
  intro p
  induction p with
  | eps => intro _ _ s _; exact ⟨_, .eps s⟩
  | any => intro _ _ s _; cases s with
    | nil => exact ⟨_, .any_end⟩
    | cons c r => exact ⟨_, .any_ok c r⟩
  | chr c => intro _ _ s _; cases s with
    | nil => exact ⟨_, .chr_end c⟩
    | cons d r =>
      by_cases h : d = c
      · subst h; exact ⟨_, .chr_ok _ r⟩
      · exact ⟨_, .chr_no h⟩
  | rng lo hi => intro _ _ s _; cases s with
    | nil => exact ⟨_, .rng_end lo hi⟩
    | cons d r =>
      by_cases h : lo ≤ d ∧ d ≤ hi
      · exact ⟨_, .rng_ok h⟩
      · exact ⟨_, .rng_no h⟩
  | seq a b iha ihb =>
    intro hg hl s hs
    simp only [Peg.guarded, Peg.noEmptyLoop, Bool.and_eq_true] at hg hl
    obtain ⟨r1, h1⟩ := iha hg.1 hl.1 s hs
    cases r1 with
    | none => exact ⟨_, .seq_no1 h1⟩
    | some x =>
      obtain ⟨t1, c1, s1⟩ := x
      have hlen := congrArg List.length (parses_text h1)
      rw [List.length_append] at hlen
      have : ∃ r2, Parses g b s1 r2 := by
        cases c1 with
        | nil =>
          have := nullable_of_empty wf.nullable h1 rfl
          rw [if_pos this] at hg
          exact ihb hg.2 hl.2 s1 (by simpa [hs] using hlen.symm)
        | cons x c1 =>
          simp only [List.length_cons] at hlen
          exact short b hl.2 s1 (by omega)
      obtain ⟨r2, h2⟩ := this
      cases r2 with
      | none => exact ⟨_, .seq_no2 h1 h2⟩
      | some x => obtain ⟨t2, c2, s2⟩ := x; exact ⟨_, .seq_ok h1 h2⟩
  | alt a b iha ihb =>
    intro hg hl s hs
    simp only [Peg.guarded, Peg.noEmptyLoop, Bool.and_eq_true] at hg hl
    obtain ⟨r1, h1⟩ := iha hg.1 hl.1 s hs
    cases r1 with
    | none =>
      obtain ⟨r2, h2⟩ := ihb hg.2 hl.2 s hs
      exact ⟨_, .alt2 h1 h2⟩
    | some x => exact ⟨_, .alt1 h1⟩
  | star a iha =>
    intro hg hl s hs
    have hl0 := hl
    simp only [Peg.guarded, Peg.noEmptyLoop, Bool.and_eq_true] at hg hl
    obtain ⟨r1, h1⟩ := iha hg.1 hl.1 s hs
    cases r1 with
    | none => exact ⟨_, .star_end h1⟩
    | some x =>
      obtain ⟨t1, c1, s1⟩ := x
      have hlen := congrArg List.length (parses_text h1)
      rw [List.length_append] at hlen
      cases c1 with
      | nil =>
        have := nullable_of_empty wf.nullable h1 rfl
        simp [this] at hl
      | cons x c1 =>
        simp only [List.length_cons] at hlen
        obtain ⟨r2, h2⟩ := short (.star a) hl0 s1 (by omega)
        cases r2 with
        | none => cases h2
        | some x => obtain ⟨t2, c2, s2⟩ := x; exact ⟨_, .star_more h1 h2⟩
  | neg a iha =>
    intro hg hl s hs
    obtain ⟨r1, h1⟩ := iha hg hl s hs
    cases r1 with
    | none => exact ⟨_, .neg_ok h1⟩
    | some x => exact ⟨_, .neg_no h1⟩
  | nt r =>
    intro hg _ s hs
    simp only [Peg.guarded, decide_eq_true_eq] at hg
    obtain ⟨r1, h1⟩ := ihk (rank r) hg (g r) (wf.guarded r) (wf.loops r) s hs
    cases r1 with
    | none => exact ⟨_, .nt_no h1⟩
    | some x => obtain ⟨t1, c1, s1⟩ := x; exact ⟨_, .nt_ok h1⟩

theorem wellFormed_total {g : R → Peg R} {nl : R → Bool} {rank : R → Nat} {K : Nat} (wf : PegWellFormed g nl rank K) (r : R)
    (s : List Char) : ∃ x, Parses g (.nt r) s x :=
  parses_total wf s.length K (.nt r) (guarded_of_loops wf.bound rfl) rfl s rfl

end Spiff
