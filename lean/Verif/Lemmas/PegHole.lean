import Verif.Lemmas.PegSym
/-
Tables of facts about the behaviour of the parser at a text, and a checker deriving the facts of a composed text from those of its
parts by symbolic execution.
-/
namespace Spiff

/-- `HoldsAt t T p fact`: the behaviour of `p` at the text `t` with the essential tokens `T`, whatever follows. -/
def HoldsAt (t : Txt) (T : List (Tok Rule)) (p : Peg Rule) : HFact → Prop
  | .fail needs => ∀ s, (∀ n ∈ needs, Parses dynamlRules n s none) → Parses dynamlRules p (t ++ s) none
  | .cont needs q => ∀ s, (∀ n ∈ needs, Parses dynamlRules n s none) → ∀ tq cq s', Parses dynamlRules q s (some (tq, cq, s')) →
      ∃ u, Parses dynamlRules p (t ++ s) (some (u, t ++ cq, s')) ∧ ess u = T ++ ess tq

abbrev Table := List (Peg Rule × HFact)

def Facts (t : Txt) (T : List (Tok Rule)) (l : Table) : Prop := ∀ x ∈ l, HoldsAt t T x.1 x.2

/-- a part of a text: text, tokens, table -/
structure Piece where
  txt : Txt
  toks : List (Tok Rule)
  table : Table
  holds : Facts txt toks table

def pieceTxt (l : List Piece) (i : Nat) : Txt := (l[i]?.map (·.txt)).getD []
def pieceToks (l : List Piece) (i : Nat) : List (Tok Rule) := (l[i]?.map (·.toks)).getD []
def pieceTable (l : List Piece) (i : Nat) : Table := (l[i]?.map (·.table)).getD []

def blanks : List (Peg Rule) := [.chr ' ', .chr '\t', .chr '\n', .chr '\r']

/-- from `ws` followed by `c` not matching: behind the blanks there is no `c` -/
def behindWs : List (Peg Rule) → List (Peg Rule)
  | [] => []
  | .seq (.nt .ws) p :: r => p :: behindWs r
  | _ :: r => behindWs r

theorem mem_behindWs {l : List (Peg Rule)} {p : Peg Rule} (h : p ∈ behindWs l) : .seq (.nt .ws) p ∈ l := by
  induction l with
  | nil => cases h
  | cons a r ih =>
    unfold behindWs at h
    split at h
    · cases h
    · rename_i heq
      cases heq
      rcases List.mem_cons.mp h with rfl | h
      · exact List.mem_cons_self
      · exact List.mem_cons_of_mem _ (ih h)
    · rename_i heq
      cases heq
      exact List.mem_cons_of_mem _ (ih h)

/-- number of the hole for the text matched by the continuation -/
abbrev contHole : Nat := 99

def wsPeg : Peg Rule := .nt .ws

/-- facts about the remaining texts -/
def endFacts (needs : List (Peg Rule)) (q : Option (Peg Rule)) : Nat → List (Peg Rule × FFact)
  | 0 => needs.map (fun n => (n, FFact.fail)) ++ (match q with
    | some q => [(q, if q.beq wsPeg then FFact.skip contHole 1 else FFact.ok contHole 1)]
    | none => [])
  | 1 => match q with
    | some q => if q.beq wsPeg then (blanks ++ behindWs needs).map (fun n => (n, FFact.fail)) else []
    | none => []
  | _ => []

def symFuel : Nat := 400

/-- blanks in front of the remaining text may be skipped in between -/
def sideWs (needs : List (Peg Rule)) : Option (Peg Rule) := if needs.any (fun n => n.beq (.chr ' ')) then none else some wsPeg

def checkFact (tables : Nat → Table) (txt : List Sym) (items : List SItem) (x : Peg Rule × HFact) : Bool :=
  match x.2 with
  | .fail needs => (sexec ⟨tables, endFacts needs (sideWs needs)⟩ symFuel x.1 (txt ++ [.fin 0])).isFail
  | .cont needs .eps => match sexec ⟨tables, endFacts needs (sideWs needs)⟩ symFuel x.1 (txt ++ [.fin 0]) with
    | .ok t c r => decide (t = items ∧ c = txt ∧ r = [.fin 0])
    | _ => false
  | .cont needs q => match sexec ⟨tables, endFacts needs (some q)⟩ symFuel x.1 (txt ++ [.fin 0]) with
    | .ok t c r => decide (t = (if q.beq wsPeg then items else items ++ [.hole contHole]) ∧ c = txt ++ [.hole contHole] ∧ r = [.fin 1])
    | _ => false

def checkTable (tables : Nat → Table) (txt : List Sym) (items : List SItem) (l : Table) : Bool :=
  l.all (checkFact tables txt items)

/-- no remaining text inside -/
def noFin : List Sym → Bool
  | [] => true
  | .fin _ :: _ => false
  | .hole i :: r => decide (i < contHole) && noFin r
  | _ :: r => noFin r

def itemsNoHole : List SItem → Bool
  | [] => true
  | .hole i :: r => decide (i < contHole) && itemsNoHole r
  | .tok _ t :: r => noFin t && itemsNoHole r

def pieceEnv (l : List Piece) (cq : Txt) (tq : List (Tok Rule)) (s s' : Txt) : SEnv where
  txt i := if i = contHole then cq else pieceTxt l i
  toks i := if i = contHole then tq else pieceToks l i
  fin k := if k = 0 then s else s'

theorem text_append {v : SEnv} {a b : List Sym} (h : noFin a = true) : v.text (a ++ b) = v.text a ++ v.text b := by
  induction a with
  | nil => rfl
  | cons x r ih =>
    cases x with
    | ch c => simp only [noFin] at h; simp [SEnv.text, ih h]
    | hole i => simp only [noFin, Bool.and_eq_true] at h; simp [SEnv.text, ih h.2]
    | fin k => simp [noFin] at h

/-- text of the pieces -/
def piecesText (l : List Piece) (a : List Sym) : Txt := (pieceEnv l [] [] [] []).text a
def piecesToks (l : List Piece) (a : List SItem) : List (Tok Rule) := (pieceEnv l [] [] [] []).items a

theorem text_pieces {l : List Piece} {cq tq s s'} {a : List Sym} (h : noFin a = true) :
    (pieceEnv l cq tq s s').text a = piecesText l a := by
  induction a with
  | nil => rfl
  | cons x r ih =>
    cases x with
    | ch c => simp only [noFin] at h; simp only [piecesText, SEnv.text] at ih ⊢; rw [ih h]
    | hole i =>
      simp only [noFin, Bool.and_eq_true, decide_eq_true_eq] at h
      simp only [piecesText, SEnv.text] at ih ⊢
      rw [ih h.2]
      have : i ≠ contHole := by omega
      simp [pieceEnv, this]
    | fin k => simp [noFin] at h

theorem items_pieces {l : List Piece} {cq tq s s'} {a : List SItem} (h : itemsNoHole a = true) :
    (pieceEnv l cq tq s s').items a = piecesToks l a := by
  induction a with
  | nil => rfl
  | cons x r ih =>
    cases x with
    | tok q t =>
      simp only [itemsNoHole, Bool.and_eq_true] at h
      simp only [piecesToks, SEnv.items, List.flatMap_cons, SEnv.item] at ih ⊢
      rw [ih h.2, text_pieces h.1]; rfl
    | hole i =>
      simp only [itemsNoHole, Bool.and_eq_true, decide_eq_true_eq] at h
      simp only [piecesToks, SEnv.items, List.flatMap_cons, SEnv.item] at ih ⊢
      rw [ih h.2]
      have : i ≠ contHole := by omega
      simp [pieceEnv, this]

theorem piece_facts (l : List Piece) (i : Nat) : Facts (pieceTxt l i) (pieceToks l i) (pieceTable l i) := by
  unfold pieceTxt pieceToks pieceTable
  cases h : l[i]? with
  | none => intro x hx; cases hx
  | some p => exact p.holds

theorem ws_stops {s : Txt} {t c s'} (h : Parses dynamlRules (.nt .ws) s (some (t, c, s'))) : ∀ p ∈ blanks, Parses dynamlRules p s' none := by
  cases h with
  | @nt_ok _ _ t0 _ _ h =>
    generalize hq : dynamlRules .ws = q at h
    generalize hr : some (t0, c, s') = res at h
    induction h generalizing t0 c s' with
    | star_end h =>
      simp only [dynamlRules, Peg.star.injEq] at hq
      subst hq
      simp only [Option.some.injEq, Prod.mk.injEq] at hr
      obtain ⟨-, -, rfl⟩ := hr
      intro p hp
      simp only [Peg.alts] at h
      cases h with | alt2 h1 h => cases h with | alt2 h2 h => cases h with | alt2 h3 h4 =>
      simp only [blanks, List.mem_cons, List.not_mem_nil, or_false] at hp
      rcases hp with rfl | rfl | rfl | rfl <;> assumption
    | star_more h1 h2 _ ih2 =>
      simp only [Option.some.injEq, Prod.mk.injEq] at hr
      obtain ⟨-, -, rfl⟩ := hr
      exact ih2 hq rfl
    | _ => cases hq

theorem blank_tokens {s : Txt} {t c s'} (h : Parses dynamlRules (dynamlRules .ws) s (some (t, c, s'))) : t = [] := by
  generalize hq : dynamlRules .ws = q at h
  generalize hr : some (t, c, s') = res at h
  induction h generalizing t c s' with
  | star_end h =>
    simp only [Option.some.injEq, Prod.mk.injEq] at hr
    exact hr.1
  | star_more h1 h2 _ ih2 =>
    simp only [Option.some.injEq, Prod.mk.injEq] at hr
    obtain ⟨rfl, -, rfl⟩ := hr
    rw [ih2 hq rfl]
    simp only [dynamlRules, Peg.star.injEq] at hq
    subst hq
    simp only [Peg.alts] at h1
    cases h1 with
    | alt1 h => cases h; rfl
    | alt2 _ h => cases h with
      | alt1 h => cases h; rfl
      | alt2 _ h => cases h with
        | alt1 h => cases h; rfl
        | alt2 _ h => cases h; rfl
  | _ => cases hq

theorem ws_ess {s : Txt} {t c s'} (h : Parses dynamlRules (.nt .ws) s (some (t, c, s'))) : ess t = [] := by
  cases h with
  | nt_ok h => rw [blank_tokens h]; rfl

theorem ws_total (s : Txt) : ∃ t c s', Parses dynamlRules wsPeg s (some (t, c, s')) := by
  suffices h : ∃ t c s', Parses dynamlRules (dynamlRules .ws) s (some (t, c, s')) by
    obtain ⟨t, c, s', h⟩ := h
    exact ⟨_, _, _, .nt_ok h⟩
  induction s with
  | nil => exact ⟨_, _, _, .star_end (.alt2 (.chr_end _) (.alt2 (.chr_end _) (.alt2 (.chr_end _) (.chr_end _))))⟩
  | cons c r ih =>
    obtain ⟨t, d, s', ih⟩ := ih
    by_cases h1 : c = ' '
    · subst h1; exact ⟨_, _, _, .star_more (.alt1 (.chr_ok _ _)) ih⟩
    by_cases h2 : c = '\t'
    · subst h2; exact ⟨_, _, _, .star_more (.alt2 (.chr_no h1) (.alt1 (.chr_ok _ _))) ih⟩
    by_cases h3 : c = '\n'
    · subst h3; exact ⟨_, _, _, .star_more (.alt2 (.chr_no h1) (.alt2 (.chr_no h2) (.alt1 (.chr_ok _ _)))) ih⟩
    by_cases h4 : c = '\r'
    · subst h4; exact ⟨_, _, _, .star_more (.alt2 (.chr_no h1) (.alt2 (.chr_no h2) (.alt2 (.chr_no h3) (.chr_ok _ _)))) ih⟩
    exact ⟨_, _, _, .star_end (.alt2 (.chr_no h1) (.alt2 (.chr_no h2) (.alt2 (.chr_no h3) (.chr_no h4))))⟩

theorem facts_hold (l : List Piece) (hl : l.length < contHole) {needs : List (Peg Rule)} {s : Txt}
    (hn : ∀ n ∈ needs, Parses dynamlRules n s none) (q : Option (Peg Rule)) {tq cq s'}
    (hq : ∀ p, q = some p → Parses dynamlRules p s (some (tq, cq, s'))) :
    SFacts.Hold ⟨pieceTable l, endFacts needs q⟩ (pieceEnv l cq (ess tq) s s') := by
  constructor
  · intro i x hx
    by_cases hi : i = contHole
    · subst hi
      have : l[contHole]? = none := List.getElem?_eq_none (by omega)
      simp [pieceTable, this] at hx
    · have := piece_facts l i x hx
      simp only [HFact.Holds]
      cases hf : x.2 with
      | fail ns => rw [hf] at this; simpa [HoldsAt, HFact.Holds, pieceEnv, hi] using this
      | cont ns q => rw [hf] at this; simpa [HoldsAt, HFact.Holds, pieceEnv, hi] using this
  · intro k x hx
    rcases k with _ | _ | k
    · simp only [endFacts, List.mem_append, List.mem_map] at hx
      rcases hx with ⟨n, hn', rfl⟩ | hx
      · exact hn n hn'
      · cases q with
        | none => cases hx
        | some p =>
          simp only [List.mem_singleton] at hx
          subst hx
          by_cases hb : p.beq wsPeg = true
          · rw [if_pos hb]
            have e := Peg.beq_eq hb
            subst e
            exact ⟨tq, by simpa [pieceEnv] using hq _ rfl, ws_ess (hq _ rfl)⟩
          · rw [if_neg hb]
            exact ⟨tq, by simpa [pieceEnv] using hq p rfl, by simp [pieceEnv]⟩
    · simp only [endFacts] at hx
      cases q with
      | none => cases hx
      | some p =>
        simp only at hx
        split at hx
        · rename_i hb
          have e := Peg.beq_eq hb
          subst e
          have hw := hq _ rfl
          simp only [List.mem_map, List.mem_append] at hx
          obtain ⟨n, hn' | hn', rfl⟩ := hx
          · exact ws_stops hw n hn'
          · have h2 := hn _ (mem_behindWs hn')
            show Parses dynamlRules n s' none
            cases h2 with
            | seq_no1 h => exact absurd (parses_unique h hw) (by simp)
            | seq_no2 h h' =>
              have := parses_unique h hw
              simp only [Option.some.injEq, Prod.mk.injEq] at this
              obtain ⟨-, -, rfl⟩ := this
              exact h'
        · cases hx
    · cases hx

theorem side_parses {needs : List (Peg Rule)} {s : Txt} {tw cw sw} (hw : Parses dynamlRules wsPeg s (some (tw, cw, sw))) :
    ∀ p, sideWs needs = some p → Parses dynamlRules p s (some (tw, cw, sw)) := by
  intro p h
  unfold sideWs at h
  split at h
  · cases h
  · cases h; exact hw

/-- The checker is sound. -/
theorem check_sound (l : List Piece) (hl : l.length < contHole) {txt : List Sym} {items : List SItem} {table : Table}
    (ht : noFin txt = true) (hi : itemsNoHole items = true) (h : checkTable (pieceTable l) txt items table = true) :
    Facts (piecesText l txt) (piecesToks l items) table := by
  intro x hx
  have hc := List.all_eq_true.mp h x hx
  obtain ⟨p, fact⟩ := x
  cases fact with
  | fail needs =>
    intro s hn
    obtain ⟨tw, cw, sw, hw⟩ := ws_total s
    have hs := sexec_sound (facts_hold l hl hn (sideWs needs) (tq := tw) (cq := cw) (s' := sw) (side_parses hw)) symFuel p (txt ++ [.fin 0])
    simp only [checkFact] at hc
    cases hx : sexec ⟨pieceTable l, endFacts needs (sideWs needs)⟩ symFuel p (txt ++ [.fin 0]) with
    | fail =>
      rw [hx] at hs
      simp only [SymRes.Sound] at hs
      rwa [text_append ht, text_pieces ht] at hs
    | stuck => simp [hx, SymRes.isFail] at hc
    | ok => simp [hx, SymRes.isFail] at hc
  | cont needs q =>
    intro s hn tq cq s' hq
    by_cases he : q = .eps
    · subst he
      cases hq
      obtain ⟨tw, cw, sw, hw⟩ := ws_total s
      have hs := sexec_sound (facts_hold l hl hn (sideWs needs) (tq := tw) (cq := cw) (s' := sw) (side_parses hw)) symFuel p (txt ++ [.fin 0])
      simp only [checkFact] at hc
      cases hx : sexec ⟨pieceTable l, endFacts needs (sideWs needs)⟩ symFuel p (txt ++ [.fin 0]) with
      | fail => simp [hx] at hc
      | stuck => simp [hx] at hc
      | ok t c r =>
        rw [hx] at hs
        simp only [hx, decide_eq_true_eq] at hc
        obtain ⟨rfl, rfl, rfl⟩ := hc
        obtain ⟨u, hp, hu, -⟩ := hs
        rw [text_append ht, text_pieces ht] at hp
        refine ⟨u, by simpa [SEnv.text, pieceEnv] using hp, ?_⟩
        rw [hu, items_pieces hi]; simp [ess]
    · have hs := sexec_sound (facts_hold l hl hn (some q) (tq := tq) (cq := cq) (s' := s') (by rintro p' e; cases e; exact hq))
        symFuel p (txt ++ [.fin 0])
      have hc' : (match sexec ⟨pieceTable l, endFacts needs (some q)⟩ symFuel p (txt ++ [.fin 0]) with
        | .ok t c r => decide (t = (if q.beq wsPeg then items else items ++ [.hole contHole]) ∧ c = txt ++ [.hole contHole] ∧ r = [.fin 1])
        | _ => false) = true := by
        cases q <;> first | exact absurd rfl he | exact hc
      cases hx : sexec ⟨pieceTable l, endFacts needs (some q)⟩ symFuel p (txt ++ [.fin 0]) with
      | fail => simp [hx] at hc'
      | stuck => simp [hx] at hc'
      | ok t c r =>
        rw [hx] at hs
        simp only [hx, decide_eq_true_eq] at hc'
        obtain ⟨rfl, rfl, rfl⟩ := hc'
        obtain ⟨u, hp, hu, -⟩ := hs
        rw [text_append ht, text_append ht, text_pieces ht] at hp
        refine ⟨u, by simpa [SEnv.text, pieceEnv] using hp, ?_⟩
        rw [hu]
        by_cases hb : q.beq wsPeg = true
        · have e := Peg.beq_eq hb
          subst e
          rw [if_pos hb, items_pieces hi, ws_ess hq]
          simp
        · rw [if_neg hb, items_append, items_pieces hi]
          simp [SEnv.items, SEnv.item, pieceEnv]

end Spiff
