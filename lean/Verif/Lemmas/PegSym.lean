import Verif.Lemmas.Peg
import Verif.Model.Syntax
/-
Symbolic execution of the grammar on texts with unknown parts. A text is a list of characters and holes; for a hole it is known how some
grammar expressions behave at it (`HFact`, `FFact`). `sexec` computes the result of a grammar expression; `sexec_sound` shows that
this is the result of the parser for every instance. With it the behaviour of the parser on a text schema is established by
evaluation in the kernel.
-/
namespace Spiff

/-- structural comparison of grammar expressions -/
def Peg.beq : Peg Rule → Peg Rule → Bool
  | .eps, .eps => true
  | .any, .any => true
  | .chr c, .chr d => c == d
  | .rng a b, .rng c d => a == c && b == d
  | .seq a b, .seq c d => a.beq c && b.beq d
  | .alt a b, .alt c d => a.beq c && b.beq d
  | .star a, .star b => a.beq b
  | .neg a, .neg b => a.beq b
  | .nt r, .nt q => r == q
  | _, _ => false

theorem Peg.beq_eq {p q : Peg Rule} (h : p.beq q = true) : p = q := by
  induction p generalizing q with
  | eps => cases q <;> simp [Peg.beq] at h ⊢
  | any => cases q <;> simp [Peg.beq] at h ⊢
  | chr c => cases q <;> simp [Peg.beq] at h ⊢; exact h
  | rng a b => cases q <;> simp [Peg.beq] at h ⊢; exact h
  | seq a b iha ihb =>
    cases q <;> simp only [Peg.beq, Bool.and_eq_true, Bool.false_eq_true] at h
    rw [iha h.1, ihb h.2]
  | alt a b iha ihb =>
    cases q <;> simp only [Peg.beq, Bool.and_eq_true, Bool.false_eq_true] at h
    rw [iha h.1, ihb h.2]
  | star a iha => cases q <;> simp only [Peg.beq, Bool.false_eq_true] at h; rw [iha h]
  | neg a iha => cases q <;> simp only [Peg.beq, Bool.false_eq_true] at h; rw [iha h]
  | nt r => cases q <;> simp [Peg.beq] at h ⊢; exact h

/-! ### essential tokens -/

/-- rules whose token is skipped by parser.go -/
def Rule.ignored : Rule → Bool
  | .Dynaml => true | .TagMarker => true | .FollowUpRef => true | .Chained => true | .ChainedQualifiedExpression => true
  | .PathComponent => true | .Lambda => true | .LambdaOrExpr => true | .Key => true | .Index => true | .Tag => true
  | .TagComponent => true | .TagPrefix => true | .Level0 => true | .Level1 => true | .Level2 => true | .Level3 => true
  | .Level4 => true | .Level5 => true | .Level6 => true | .Level7 => true | .Expression => true | .ExpressionList => true
  | .NameArgumentList => true | .Map => true | .Scope => true | .Assignments => true | .Names => true | .Params => true
  | .ws => true | .req_ws => true
  | _ => false

/-- rules whose text is used -/
def Rule.usesText : Rule → Bool
  | .Marker => true | .SubsequentMarker => true | .MarkerExpression => true | .Reference => true | .ChainedRef => true
  | .Number => true | .Boolean => true | .String => true | .IP => true | .OrOp => true | .CompareOp => true | .Name => true
  | .RangeOp => true
  | _ => false

def essTok (t : Tok Rule) : Option (Tok Rule) :=
  if t.rule.ignored then none else some ⟨t.rule, if t.rule.usesText then t.text else []⟩

/-- the tokens the result depends on -/
def ess (l : List (Tok Rule)) : List (Tok Rule) := l.filterMap essTok

theorem ess_append (a b : List (Tok Rule)) : ess (a ++ b) = ess a ++ ess b := List.filterMap_append ..

theorem buildTokens_ess (lib : PLib) (cx : PCtx) (s : PState) (l : List (Tok Rule)) :
    buildTokens lib cx s (ess l) = buildTokens lib cx s l := by
  induction l generalizing s with
  | nil => rfl
  | cons t r ih =>
    obtain ⟨rule, text⟩ := t
    have e : ess (⟨rule, text⟩ :: r) = match essTok ⟨rule, text⟩ with
        | none => ess r
        | some u => u :: ess r := by
      unfold ess
      rw [List.filterMap_cons]
      cases essTok ⟨rule, text⟩ <;> rfl
    rw [e]
    have hstep : ∀ x : Built PState, x.bind (fun s => buildTokens lib cx s (ess r)) = x.bind (fun s => buildTokens lib cx s r) := by
      intro x; cases x <;> simp [Built.bind, ih]
    cases rule <;> first
      | exact ih s
      | exact hstep _

/-! ### symbolic texts -/

inductive Sym where
  | ch (c : Char)
  /-- an unknown text -/
  | hole (i : Nat)
  /-- the unknown remaining text -/
  | fin (k : Nat)
deriving DecidableEq

inductive SItem where
  | tok (r : Rule) (text : List Sym)
  | hole (i : Nat)
deriving DecidableEq

/-- values of the unknown parts: the texts, the tokens of the holes, the remaining texts -/
structure SEnv where
  txt : Nat → Txt
  toks : Nat → List (Tok Rule)
  fin : Nat → Txt

def SEnv.text (v : SEnv) : List Sym → Txt
  | [] => []
  | .ch c :: r => c :: v.text r
  | .hole i :: r => v.txt i ++ v.text r
  | .fin k :: _ => v.fin k

def SEnv.item (v : SEnv) : SItem → List (Tok Rule)
  | .tok r t => [⟨r, v.text t⟩]
  | .hole i => v.toks i

def SEnv.items (v : SEnv) (l : List SItem) : List (Tok Rule) := l.flatMap v.item

/-- Known behaviour at a hole, whatever follows: the grammar expressions `needs` have to fail behind the hole. -/
inductive HFact where
  /-- no match -/
  | fail (needs : List (Peg Rule))
  /-- matches the hole and what `q` matches behind it -/
  | cont (needs : List (Peg Rule)) (q : Peg Rule)

/-- Known behaviour at the remaining text. -/
inductive FFact where
  | fail
  /-- matches the text of the hole `i`; the remaining text `k` is left -/
  | ok (i k : Nat)
  /-- the same without essential tokens -/
  | skip (i k : Nat)

structure SFacts where
  hole : Nat → List (Peg Rule × HFact)
  fin : Nat → List (Peg Rule × FFact)

def HFact.Holds (v : SEnv) (i : Nat) (p : Peg Rule) : HFact → Prop
  | .fail needs => ∀ s, (∀ n ∈ needs, Parses dynamlRules n s none) → Parses dynamlRules p (v.txt i ++ s) none
  | .cont needs q => ∀ s, (∀ n ∈ needs, Parses dynamlRules n s none) → ∀ tq cq s', Parses dynamlRules q s (some (tq, cq, s')) →
      ∃ t, Parses dynamlRules p (v.txt i ++ s) (some (t, v.txt i ++ cq, s')) ∧ ess t = v.toks i ++ ess tq

def FFact.Holds (v : SEnv) (k : Nat) (p : Peg Rule) : FFact → Prop
  | .fail => Parses dynamlRules p (v.fin k) none
  | .ok i k' => ∃ t, Parses dynamlRules p (v.fin k) (some (t, v.txt i, v.fin k')) ∧ ess t = v.toks i
  | .skip i k' => ∃ t, Parses dynamlRules p (v.fin k) (some (t, v.txt i, v.fin k')) ∧ ess t = []

structure SFacts.Hold (f : SFacts) (v : SEnv) : Prop where
  hole : ∀ i, ∀ x ∈ f.hole i, x.2.Holds v i x.1
  fin : ∀ k, ∀ x ∈ f.fin k, x.2.Holds v k x.1

def findFact {α : Type} (p : Peg Rule) : List (Peg Rule × α) → Option α
  | [] => none
  | x :: r => if x.1.beq p then some x.2 else findFact p r

theorem findFact_mem {α : Type} {p : Peg Rule} {l : List (Peg Rule × α)} {a : α} (h : findFact p l = some a) : (p, a) ∈ l := by
  induction l with
  | nil => cases h
  | cons x r ih =>
    simp only [findFact] at h
    split at h
    · rename_i hb
      simp only [Option.some.injEq] at h
      rw [← Peg.beq_eq hb, ← h]
      exact List.mem_cons_self
    · exact List.mem_cons_of_mem _ (ih h)

/-- result of a symbolic execution -/
inductive SymRes where
  | stuck
  | fail
  | ok (t : List SItem) (c rest : List Sym)

def SymRes.isFail : SymRes → Bool
  | .fail => true
  | _ => false

def SymRes.andThen (x : SymRes) (f : List Sym → SymRes) : SymRes :=
  match x with
  | .ok t c s => match f s with
    | .ok t' c' s' => .ok (t ++ t') (c ++ c') s'
    | r => r
  | r => r

def SymRes.orElse (x : SymRes) (f : Unit → SymRes) : SymRes :=
  match x with
  | .fail => f ()
  | r => r

def SymRes.loop (x : SymRes) (s : List Sym) (f : List Sym → SymRes) : SymRes :=
  match x with
  | .fail => .ok [] [] s
  | .ok t c s1 => match f s1 with
    | .ok t' c' s' => .ok (t ++ t') (c ++ c') s'
    | r => r
  | .stuck => .stuck

def SymRes.negate (x : SymRes) (s : List Sym) : SymRes :=
  match x with
  | .fail => .ok [] [] s
  | .ok _ _ _ => .fail
  | .stuck => .stuck

def SymRes.token (r : Rule) (x : SymRes) : SymRes :=
  match x with
  | .ok t c s => .ok (if r.ignored then t else t ++ [.tok r (if r.usesText then c else [])]) c s
  | x => x

/-- the result given by a fact at a hole -/
def SymRes.ofHole (i : Nat) (s : List Sym) (run : Peg Rule → List Sym → SymRes) : Option HFact → SymRes
  | none => .stuck
  | some (.fail needs) => if needs.all (fun n => (run n s).isFail) then .fail else .stuck
  | some (.cont needs q) => if needs.all (fun n => (run n s).isFail) then
      match run q s with
      | .ok t c s' => .ok (.hole i :: t) (.hole i :: c) s'
      | _ => .stuck
    else .stuck

def SymRes.ofFin : Option FFact → SymRes
  | none => .stuck
  | some .fail => .fail
  | some (.ok i k) => .ok [.hole i] [.hole i] [.fin k]
  | some (.skip i k) => .ok [] [.hole i] [.fin k]

/-- the result by the facts -/
def factRes (f : SFacts) (run : Peg Rule → List Sym → SymRes) (p : Peg Rule) : List Sym → SymRes
  | .hole i :: s => .ofHole i s run (findFact p (f.hole i))
  | .fin k :: _ => .ofFin (findFact p (f.fin k))
  | _ => .stuck

def SymRes.orStuck (x : SymRes) (f : Unit → SymRes) : SymRes :=
  match x with
  | .stuck => f ()
  | r => r

/-- a test of the next character -/
def charRes (ok : Char → Bool) : List Sym → SymRes
  | .ch c :: s => if ok c then .ok [] [.ch c] s else .fail
  | [] => .fail
  | _ => .stuck

/-- Symbolic execution with bounded nesting. -/
def sexec (f : SFacts) : Nat → Peg Rule → List Sym → SymRes
  | 0, _, _ => .stuck
  | n + 1, p, s => (factRes f (sexec f n) p s).orStuck (fun _ => match p with
    | .eps => .ok [] [] s
    | .any => charRes (fun _ => true) s
    | .chr c => charRes (fun d => d == c) s
    | .rng lo hi => charRes (fun d => decide (lo ≤ d) && decide (d ≤ hi)) s
    | .seq a b => (sexec f n a s).andThen (sexec f n b)
    | .alt a b => (sexec f n a s).orElse (fun _ => sexec f n b s)
    | .star a => (sexec f n a s).loop s (sexec f n (.star a))
    | .neg a => (sexec f n a s).negate s
    | .nt r => (sexec f n (dynamlRules r) s).token r)

/-- meaning of a symbolic result -/
def SymRes.Sound (v : SEnv) (p : Peg Rule) (s : List Sym) : SymRes → Prop
  | .stuck => True
  | .fail => Parses dynamlRules p (v.text s) none
  | .ok t c s' => ∃ toks, Parses dynamlRules p (v.text s) (some (toks, v.text c, v.text s')) ∧ ess toks = v.items t ∧
      (∀ r, v.text (c ++ r) = v.text c ++ v.text r)

section sound
variable {f : SFacts} {v : SEnv} (hf : f.Hold v)

theorem items_append (v : SEnv) (a b : List SItem) : v.items (a ++ b) = v.items a ++ v.items b := by simp [SEnv.items]

theorem seq_sound {p q : Peg Rule} {s : List Sym} {x : SymRes} (hx : x.Sound v p s) {g : List Sym → SymRes}
    (hg : ∀ s', (g s').Sound v q s') : (x.andThen g).Sound v (.seq p q) s := by
  cases x with
  | stuck => trivial
  | fail => exact .seq_no1 hx
  | ok t c s' =>
    obtain ⟨toks, hp, he, hc⟩ := hx
    have := hg s'
    simp only [SymRes.andThen]
    cases hgs : g s' with
    | stuck => trivial
    | fail => rw [hgs] at this; exact .seq_no2 hp this
    | ok t' c' s'' =>
      rw [hgs] at this
      obtain ⟨toks', hp', he', hc'⟩ := this
      refine ⟨toks ++ toks', ?_, ?_, ?_⟩
      · rw [hc]; exact .seq_ok hp hp'
      · rw [ess_append, he, he', items_append]
      · intro r; rw [List.append_assoc, hc, hc', hc, List.append_assoc]

theorem star_sound {p : Peg Rule} {s : List Sym} {x : SymRes} (hx : x.Sound v p s) {g : List Sym → SymRes}
    (hg : ∀ s', (g s').Sound v (.star p) s') : (x.loop s g).Sound v (.star p) s := by
  cases x with
  | stuck => trivial
  | fail => exact ⟨[], .star_end hx, rfl, fun r => rfl⟩
  | ok t c s' =>
    obtain ⟨toks, hp, he, hc⟩ := hx
    have := hg s'
    simp only [SymRes.loop]
    cases hgs : g s' with
    | stuck => trivial
    | fail => rw [hgs] at this; cases this
    | ok t' c' s'' =>
      rw [hgs] at this
      obtain ⟨toks', hp', he', hc'⟩ := this
      refine ⟨toks ++ toks', ?_, ?_, ?_⟩
      · rw [hc]; exact .star_more hp hp'
      · rw [ess_append, he, he', items_append]
      · intro r; rw [List.append_assoc, hc, hc', hc, List.append_assoc]

theorem alt_sound {p q : Peg Rule} {s : List Sym} {x : SymRes} (hx : x.Sound v p s) {g : Unit → SymRes} (hg : (g ()).Sound v q s) :
    (x.orElse g).Sound v (.alt p q) s := by
  cases x with
  | stuck => trivial
  | fail =>
    simp only [SymRes.orElse]
    cases hgs : g () with
    | stuck => trivial
    | fail => rw [hgs] at hg; exact .alt2 hx hg
    | ok t c s' =>
      rw [hgs] at hg
      obtain ⟨toks, hp, he, hc⟩ := hg
      exact ⟨toks, .alt2 hx hp, he, hc⟩
  | ok t c s' =>
    obtain ⟨toks, hp, he, hc⟩ := hx
    exact ⟨toks, .alt1 hp, he, hc⟩

theorem neg_sound {p : Peg Rule} {s : List Sym} {x : SymRes} (hx : x.Sound v p s) : (x.negate s).Sound v (.neg p) s := by
  cases x with
  | stuck => trivial
  | fail => exact ⟨[], .neg_ok hx, rfl, fun r => rfl⟩
  | ok t c s' =>
    obtain ⟨toks, hp, he, hc⟩ := hx
    exact .neg_no hp

theorem token_sound {r : Rule} {s : List Sym} {x : SymRes} (hx : x.Sound v (dynamlRules r) s) : (x.token r).Sound v (.nt r) s := by
  cases x with
  | stuck => trivial
  | fail => exact .nt_no hx
  | ok t c s' =>
    obtain ⟨toks, hp, he, hc⟩ := hx
    refine ⟨_, .nt_ok hp, ?_, hc⟩
    rw [ess_append, he]
    by_cases hi : r.ignored = true
    · simp [ess, essTok, hi]
    · by_cases hu : r.usesText = true
      · simp [ess, essTok, hi, hu, SEnv.items, SEnv.item]
      · simp [ess, essTok, hi, hu, SEnv.items, SEnv.item, SEnv.text]

theorem char_sound {p : Peg Rule} {ok : Char → Bool} {s : List Sym}
    (h1 : ∀ c r, ok c = true → Parses dynamlRules p (c :: r) (some ([], [c], r)))
    (h2 : ∀ c r, ok c = false → Parses dynamlRules p (c :: r) none) (h3 : Parses dynamlRules p [] none) :
    (charRes ok s).Sound v p s := by
  unfold charRes
  split
  · rename_i c s
    split
    · rename_i h; exact ⟨[], h1 c _ h, rfl, fun r => rfl⟩
    · rename_i h; exact h2 c _ (by simpa using h)
  · exact h3
  · trivial

include hf in
theorem fact_sound {run : Peg Rule → List Sym → SymRes} (hr : ∀ q s', (run q s').Sound v q s') (p : Peg Rule) (s : List Sym) :
    (factRes f run p s).Sound v p s := by
  have needs : ∀ (l : List (Peg Rule)) (s' : List Sym), l.all (fun n => (run n s').isFail) = true →
      ∀ n ∈ l, Parses dynamlRules n (v.text s') none := by
    intro l s' hall n hn
    have h1 := List.all_eq_true.mp hall n hn
    have h2 := hr n s'
    cases hx : run n s' with
    | fail => rw [hx] at h2; exact h2
    | stuck => simp [hx, SymRes.isFail] at h1
    | ok => simp [hx, SymRes.isFail] at h1
  unfold factRes
  split
  · rename_i i s'
    cases hfa : findFact p (f.hole i) with
    | none => trivial
    | some fa =>
      have hh := hf.hole i _ (findFact_mem hfa)
      cases fa with
      | fail ns =>
        simp only [SymRes.ofHole]
        split
        · rename_i hall
          exact hh _ (needs ns s' hall)
        · trivial
      | cont ns q =>
        simp only [SymRes.ofHole]
        split
        · rename_i hall
          have hq := hr q s'
          cases hx : run q s' with
          | stuck => trivial
          | fail => trivial
          | ok t c s'' =>
            rw [hx] at hq
            obtain ⟨tq, hp, he, hc⟩ := hq
            obtain ⟨toks, ht, hte⟩ := hh _ (needs ns s' hall) _ _ _ hp
            refine ⟨toks, ht, ?_, ?_⟩
            · rw [hte, he]; rfl
            · intro r; simp [SEnv.text, hc]
        · trivial
  · rename_i k s'
    cases hfa : findFact p (f.fin k) with
    | none => trivial
    | some fa =>
      have hh := hf.fin k _ (findFact_mem hfa)
      cases fa with
      | fail => exact hh
      | ok i k' =>
        obtain ⟨t, hp, he⟩ := hh
        refine ⟨t, ?_, by simp [SEnv.items, SEnv.item, he], ?_⟩
        · simpa [SEnv.text] using hp
        · intro r; simp [SEnv.text]
      | skip i k' =>
        obtain ⟨t, hp, he⟩ := hh
        refine ⟨t, ?_, by simp [SEnv.items, he], ?_⟩
        · simpa [SEnv.text] using hp
        · intro r; simp [SEnv.text]
  · trivial

include hf in
theorem sexec_sound (n : Nat) (p : Peg Rule) (s : List Sym) : (sexec f n p s).Sound v p s := by
  induction n generalizing p s with
  | zero => trivial
  | succ n ih =>
    have hfact := fact_sound hf ih p s
    unfold sexec
    cases hx : factRes f (sexec f n) p s with
    | fail => rw [hx] at hfact; exact hfact
    | ok t c s' => rw [hx] at hfact; exact hfact
    | stuck =>
      simp only [SymRes.orStuck]
      cases p with
      | eps => exact ⟨[], .eps _, rfl, fun r => rfl⟩
      | any => exact char_sound (fun c r _ => .any_ok c r) (fun c r h => by cases h) .any_end
      | chr c =>
        exact char_sound (fun d r h => by rw [eq_of_beq h]; exact .chr_ok c r)
          (fun d r h => .chr_no (by rintro rfl; simp at h)) (.chr_end c)
      | rng lo hi =>
        exact char_sound (fun d r h => .rng_ok (by simpa using h)) (fun d r h => .rng_no (by simpa using h)) (.rng_end lo hi)
      | seq a b => exact seq_sound (ih a s) (ih b)
      | alt a b => exact alt_sound (ih a s) (ih b s)
      | star a => exact star_sound (ih a s) (ih (.star a))
      | neg a => exact neg_sound (ih a s)
      | nt r => exact token_sound (ih _ s)
end sound

end Spiff
