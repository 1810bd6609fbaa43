import Verif.Lemmas.PegMerge
/-
Printed texts: composition of the facts about the parser with the construction of the tree.
-/
namespace Spiff

section
variable (lib : PLib) (cx : PCtx)

/-- the tokens turn one stack into another one -/
def Runs (T : List (Tok Rule)) (st st' : List StackItem) : Prop :=
  buildTokens lib cx { stack := st } T = .ok { stack := st' }

/-- the tokens push an expression -/
def Pushes (T : List (Tok Rule)) (e : Syn) : Prop := ∀ st, Runs lib cx T st (.expr e :: st)
/-- the tokens append expressions -/
def Appends (T : List (Tok Rule)) (l : List Syn) : Prop := ∀ L st, Runs lib cx T (.exprs L :: st) (.exprs (L ++ l) :: st)
/-- the tokens append keys and values -/
def Assigns (T : List (Tok Rule)) (l : List Syn) : Prop :=
  ∀ as st, Runs lib cx T (.expr (.node .map as) :: st) (.expr (.node .map (as ++ l)) :: st)
/-- the tokens append parameters -/
def AddsNames (T : List (Tok Rule)) (ps : List (Txt × Option Syn)) : Prop := ∀ L v st, Runs lib cx T (.names L v :: st) (.names (L ++ ps) v :: st)
end

section
variable {lib : PLib} {cx : PCtx}

theorem Runs.nil (st : List StackItem) : Runs lib cx [] st st := rfl

theorem Runs.append {a b : List (Tok Rule)} {st st1 st2 : List StackItem} (h1 : Runs lib cx a st st1) (h2 : Runs lib cx b st1 st2) :
    Runs lib cx (a ++ b) st st2 := by
  unfold Runs at *
  rw [buildTokens_append, h1]
  exact h2

theorem Runs.tok {t : Tok Rule} {st st' : List StackItem} (h : buildStep lib cx { stack := st } t = .ok { stack := st' }) : Runs lib cx [t] st st' := by
  unfold Runs buildTokens
  rw [h]
  rfl

theorem Runs.cons {t : Tok Rule} {b : List (Tok Rule)} {st st1 st2 : List StackItem}
    (h : buildStep lib cx { stack := st } t = .ok { stack := st1 }) (h2 : Runs lib cx b st1 st2) : Runs lib cx (t :: b) st st2 :=
  Runs.append (Runs.tok h) h2
end

theorem tables_eq (l : List Piece) : pieceTable l = tablesOf (l.map (·.table)) := by
  funext i
  simp only [pieceTable, tablesOf, List.getElem?_map]

/-- The facts of a composed text. -/
theorem form_facts (l : List Piece) {txt : List Sym} {items : List SItem} {table : Table} {t : Txt} {T : List (Tok Rule)}
    (h : checkTable (tablesOf (l.map (·.table))) txt items table = true) (hl : l.length < contHole := by simp [contHole])
    (ht : noFin txt = true := by rfl) (hi : itemsNoHole items = true := by rfl)
    (et : piecesText l txt = t := by simp [piecesText, SEnv.text, pieceEnv, pieceTxt, contHole])
    (eT : piecesToks l items = T := by simp [piecesToks, SEnv.items, SEnv.item, SEnv.text, pieceEnv, pieceToks, contHole]) : Facts t T table := by
  subst et eT
  refine check_sound l hl ht hi ?_
  rw [tables_eq]; exact h

theorem joinTxt_cons (sep a : Txt) (l : List Txt) : joinTxt sep (a :: l) = a ++ l.flatMap (fun x => sep ++ x) := by
  induction l generalizing a with
  | nil => simp [joinTxt]
  | cons b l ih =>
    rw [joinTxt, ih b]
    · simp
    · simp

theorem text_chars (v : SEnv) (t : Txt) (r : List Sym) : v.text (symChars t ++ r) = t ++ v.text r := by
  induction t with
  | nil => rfl
  | cons c t ih => simp only [symChars, List.map_cons, List.cons_append, SEnv.text] at ih ⊢; rw [ih]

theorem noFin_chars (t : Txt) (r : List Sym) : noFin (symChars t ++ r) = noFin r := by
  induction t with
  | nil => rfl
  | cons c t ih => exact ih

theorem facts_cons {t : Txt} {T : List (Tok Rule)} {p : Peg Rule} {f : HFact} {l : Table} (h1 : HoldsAt t T p f) (h : Facts t T l) : Facts t T ((p, f) :: l) := by
  intro x hx
  rcases List.mem_cons.mp hx with rfl | hx
  · exact h1
  · exact h x hx

theorem facts_tail {t : Txt} {T : List (Tok Rule)} {x : Peg Rule × HFact} {l : Table} (h : Facts t T (x :: l)) : Facts t T l :=
  fun y hy => h y (List.mem_cons_of_mem _ hy)

theorem facts_head {t : Txt} {T : List (Tok Rule)} {p : Peg Rule} {f : HFact} {l : Table} (h : Facts t T ((p, f) :: l)) : HoldsAt t T p f :=
  h _ List.mem_cons_self

/-! ### the texts of the forms -/

section
variable (lib : PLib)
theorem text_expand (e : Syn) : synText lib (.node .expand [e]) = synText lib e ++ ['.', '.', '.'] := rfl
theorem text_named (n : Txt) (e : Syn) : synText lib (.node (.named n) [e]) = n ++ ['='] ++ synText lib e := rfl
theorem text_group (e : Syn) : synText lib (.node .group [e]) = ['(', ' '] ++ synText lib e ++ [' ', ')'] := rfl
theorem text_not (e : Syn) : synText lib (.node .not [e]) = ['!', '('] ++ synText lib e ++ [')'] := rfl
theorem text_subst (e : Syn) : synText lib (.node .subst [e]) = ['*', '('] ++ synText lib e ++ [')'] := rfl
theorem text_prefer (e : Syn) : synText lib (.node .prefer [e]) = ['p', 'r', 'e', 'f', 'e', 'r', ' '] ++ synText lib e := rfl
theorem text_cond (c t f : Syn) : synText lib (.node .cond [c, t, f]) = synText lib c ++ [' ', '?', ' '] ++ synText lib t ++ [' ', ':', ' '] ++ synText lib f := rfl
theorem text_lambdaRef (p q : List Txt) (e : Syn) : synText lib (.node (.lambdaRef p q) [e]) = ['l', 'a', 'm', 'b', 'd', 'a', ' '] ++ synText lib e := rfl
theorem text_range (a b : Syn) : synText lib (.node (.range true true) [a, b]) = ['['] ++ synText lib a ++ ['.', '.'] ++ synText lib b ++ [']'] := rfl
theorem text_dyn (a b : Syn) : synText lib (.node .dyn [a, b]) = synText lib a ++ ['.'] ++ synText lib b := rfl
theorem text_qual (P : List Txt) (a : Syn) : synText lib (.node (.qual P) [a]) = ['('] ++ synText lib a ++ [')', '.'] ++ refText [] P := rfl
theorem text_sum (a i l : Syn) : synText lib (.node .sum [a, i, l]) =
    ['s', 'u', 'm', '['] ++ synText lib a ++ ['|'] ++ synText lib i ++ lambdaArg (isLambda l) (synText lib l) ++ [']'] := rfl
theorem text_list (l : List Syn) : synText lib (.node .list l) = ['['] ++ joinTxt [',', ' '] (l.map (synText lib)) ++ [']'] := by
  have : synTexts lib l = l.map (synText lib) := by
    induction l with
    | nil => rfl
    | cons a l ih => simp [synTexts, ih]
  rw [← this]; rfl
end

end Spiff
