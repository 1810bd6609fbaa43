import Verif.Lemmas.PrintBuild
/-
C63: printing an expression and parsing the text gives the same expression again, up to parentheses.
-/
namespace Spiff

section
variable (lib : PLib) (cx : PCtx)

/-- the text is not mistaken for an index -/
def IdxOk (e : Syn) : Prop := (∀ i, e ≠ .node (.int i) []) → HoldsAt (synText lib e) [] pIndexTail (.fail [])

/-- what has to be shown for the kinds -/
def POk : PKind → Syn → Prop
  | .operand o k, e => ∃ T, Facts (synText lib e) T (if o then openTable k else closedTable k) ∧ Pushes lib cx T (regroup e) ∧ IdxOk lib e ∧ (o = true → 1 ≤ k)
  | .expr, e => ∃ T, Facts (synText lib e) T exprTable ∧ Facts (' ' :: synText lib e) T blankTable ∧ Pushes lib cx T (regroup e) ∧ IdxOk lib e
  | .elem, a => ∃ T, Facts (synText lib a) T elemTable ∧ Facts (' ' :: synText lib a) T elemBlankTable ∧ Appends lib cx T [regroup a] ∧ IdxOk lib a
  | .named, a => ∃ T, Facts (synText lib a) T namedTable ∧ Facts (' ' :: synText lib a) T namedBlankTable ∧ Appends lib cx T [regroup a]
  | .lam, e => isLambda e = true ∧ ∃ p t Tp Tb, synText lib e = "lambda|".toList ++ p ++ "|->".toList ++ t ∧ Facts p Tp paramsTable ∧ Facts t Tb exprTable ∧
      Pushes lib cx (⟨.StartParams, []⟩ :: (Tp ++ Tb ++ [⟨.LambdaExpr, []⟩])) (regroup e)

/-- the text of further elements -/
@[simp] def tailText : List Syn → Txt
  | [] => []
  | a :: l => ',' :: ' ' :: (synText lib a ++ tailText l)
end

section
variable {lib : PLib} {cx : PCtx}

theorem all_range {P : Nat → Bool} {n k : Nat} (h : (List.range n).all P = true) (hk : k < n) : P k = true :=
  List.all_eq_true.mp h k (List.mem_range.mpr hk)

theorem synTexts_map (l : List Syn) : synTexts lib l = l.map (synText lib) := by
  induction l with
  | nil => rfl
  | cons a l ih => simp [synTexts, ih]

theorem regroupAll_map (l : List Syn) : regroupAll l = l.map regroup := by
  induction l with
  | nil => rfl
  | cons a l ih => simp [regroupAll, ih]

/-! ### lists of elements -/

theorem tail_ok {l : List Syn} (h : ∀ a ∈ l, POk lib cx .elem a) :
    ∃ T, Facts (tailText lib l) T tailTable ∧ Appends lib cx T (l.map regroup) := by
  induction l with
  | nil =>
    refine ⟨[], form_facts [] tail_nil, ?_⟩
    intro L st
    simpa using Runs.nil _
  | cons a l ih =>
    obtain ⟨T, hT, hA⟩ := ih (fun b hb => h b (by simp [hb]))
    obtain ⟨Ta, -, hb, hAa, -⟩ := h a (by simp)
    refine ⟨Ta ++ T, form_facts [⟨_, _, _, hb⟩, ⟨_, _, _, hT⟩] tail_cons, ?_⟩
    · intro L st
      have := (hAa L st).append (hA (L ++ [regroup a]) st)
      simpa using this

theorem namedTail_ok {l : List Syn} (h : ∀ a ∈ l, POk lib cx .named a) :
    ∃ T, Facts (tailText lib l) T namedTailTable ∧ Appends lib cx T (l.map regroup) := by
  induction l with
  | nil =>
    refine ⟨[], form_facts [] namedTail_nil, ?_⟩
    intro L st
    simpa using Runs.nil _
  | cons a l ih =>
    obtain ⟨T, hT, hA⟩ := ih (fun b hb => h b (by simp [hb]))
    obtain ⟨Ta, -, hb, hAa⟩ := h a (by simp)
    refine ⟨Ta ++ T, form_facts [⟨_, _, _, hb⟩, ⟨_, _, _, hT⟩] namedTail_cons, ?_⟩
    · intro L st
      have := (hAa L st).append (hA (L ++ [regroup a]) st)
      simpa using this

theorem text_elems (a : Syn) (l : List Syn) : synText lib (.node .list (a :: l)) = '[' :: (synText lib a ++ (tailText lib l ++ [']'])) := by
  rw [text_list, List.map_cons, joinTxt_cons]
  have : (l.map (synText lib)).flatMap (fun x => [',', ' '] ++ x) = tailText lib l := by
    induction l with
    | nil => rfl
    | cons b l ih => simp only [List.map_cons, List.flatMap_cons, ih, tailText]; simp
  rw [this]; simp

/-! ### from operands to expressions and elements -/

theorem idx_other {e : Syn} {T : List (Tok Rule)} (h : HoldsAt (synText lib e) T pIndexTail (.fail [])) : IdxOk lib e := fun _ => h

theorem up_ok {o : Bool} {k : Nat} {e : Syn} (h : POk lib cx (.operand o k) e) (hk : k < 8) : POk lib cx (.operand o (k + 1)) e := by
  obtain ⟨T, hf, hp, hi, ho⟩ := h
  refine ⟨T, ?_, hp, hi, fun h => by omega⟩
  cases o with
  | false =>
    exact form_facts [⟨_, _, _, hf⟩] (all_range closed_up hk)
  | true =>
    cases k with
    | zero => exact absurd (ho rfl) (by decide)
    | succ k =>
      exact form_facts [⟨_, _, _, hf⟩] (all_range (k := k) open_up (by omega))

theorem expr_ok {o : Bool} {e : Syn} (h : POk lib cx (.operand o 8) e) : POk lib cx .expr e := by
  obtain ⟨T, hf, hp, hi, -⟩ := h
  refine ⟨T, ?_, ?_, hp, hi⟩
  · cases o with
    | false =>
      exact form_facts [⟨_, _, _, hf⟩] closed_expr
    | true =>
      exact form_facts [⟨_, _, _, hf⟩] open_expr
  · cases o with
    | false =>
      exact form_facts [⟨_, _, _, hf⟩] closed_blank
    | true =>
      exact form_facts [⟨_, _, _, hf⟩] open_blank

theorem elem_ok {e : Syn} (h : POk lib cx .expr e) : POk lib cx .elem e := by
  obtain ⟨T, hf, hb, hp, hi⟩ := h
  refine ⟨T ++ [⟨.NextExpression, []⟩], ?_, ?_, ?_, hi⟩
  · exact form_facts [⟨_, _, _, hf⟩] elem_plain
  · exact form_facts [⟨_, _, _, hb⟩] elemBlank_plain
  · intro L st
    exact (hp _).append (.tok rfl)

/-- text equations -/
macro "txt_eq" : tactic => `(tactic| simp [piecesText, SEnv.text, pieceEnv, pieceTxt, contHole, text_chars, symChars,
  text_expand, text_named, text_group, text_not, text_subst, text_prefer, text_cond, text_lambdaRef, text_range, text_dyn, text_qual, text_sum, text_list])

theorem expand_ok {e : Syn} (h : POk lib cx .expr e) : POk lib cx .elem (.node .expand [e]) := by
  obtain ⟨T, hf, hb, hp, hi⟩ := h
  refine ⟨T ++ [⟨.ListExpansion, []⟩, ⟨.NextExpression, []⟩], ?_, ?_, ?_, ?_⟩
  · exact form_facts [⟨_, _, _, hf⟩] elem_expand (et := by txt_eq)
  · exact form_facts [⟨_, _, _, hb⟩] elemBlank_expand (et := by txt_eq)
  · intro L st
    exact (hp _).append (.cons rfl (.tok rfl))
  · exact idx_other (facts_head (form_facts (table := nonIndex []) (T := T ++ [⟨.ListExpansion, []⟩, ⟨.NextExpression, []⟩]) [⟨_, _, _, hf⟩] elem_expand_idx (et := by txt_eq)))

theorem named_ok {n : Txt} {e : Syn} (hn : NameText n) (h : POk lib cx .expr e) : POk lib cx .named (.node (.named n) [e]) := by
  obtain ⟨T, hf, hb, hp, hi⟩ := h
  have hnf := name_facts hn
  refine ⟨⟨.Name, n⟩ :: T ++ [⟨.NextNameArgument, []⟩], ?_, ?_, ?_⟩
  · exact form_facts [⟨_, _, _, hnf⟩, ⟨_, _, _, hf⟩] named_form (et := by txt_eq)
  · exact form_facts [⟨_, _, _, hnf⟩, ⟨_, _, _, hf⟩] namedBlank_form (et := by txt_eq)
  · intro L st
    exact Runs.append (.cons rfl (hp _)) (.tok rfl)

/-- an operand that is no number -/
theorem operand_ok {o : Bool} {k : Nat} {e : Syn} {T : List (Tok Rule)} (h : Facts (synText lib e) T (nonIndex (if o then openTable k else closedTable k)))
    (hp : Pushes lib cx T (regroup e)) (ho : o = true → 1 ≤ k) : POk lib cx (.operand o k) e :=
  ⟨T, facts_tail h, hp, idx_other (facts_head h), ho⟩

theorem group_ok {e : Syn} (h : POk lib cx .expr e) : POk lib cx (.operand false 0) (.node .group [e]) := by
  obtain ⟨T, hf, hb, hp, hi⟩ := h
  refine operand_ok (T := T ++ [⟨.Grouped, []⟩]) ?_ ?_ (by simp)
  · exact form_facts [⟨_, _, _, hb⟩] group_form (et := by txt_eq)
  · intro st
    exact (hp _).append (.tok rfl)

theorem not_ok {e : Syn} (h : POk lib cx .expr e) : POk lib cx (.operand false 1) (.node .not [e]) := by
  obtain ⟨T, hf, hb, hp, hi⟩ := h
  refine operand_ok (T := T ++ [⟨.Grouped, []⟩, ⟨.Not, []⟩]) ?_ ?_ (by simp)
  · exact form_facts [⟨_, _, _, hf⟩] not_form (et := by txt_eq)
  · intro st
    exact (hp _).append (.cons rfl (.tok rfl))

theorem subst_ok {e : Syn} (h : POk lib cx .expr e) : POk lib cx (.operand false 1) (.node .subst [e]) := by
  obtain ⟨T, hf, hb, hp, hi⟩ := h
  refine operand_ok (T := T ++ [⟨.Grouped, []⟩, ⟨.Substitution, []⟩]) ?_ ?_ (by simp)
  · exact form_facts [⟨_, _, _, hf⟩] subst_form (et := by txt_eq)
  · intro st
    exact (hp _).append (.cons rfl (.tok rfl))

theorem cond_ok {c t f : Syn} (hc : POk lib cx (.operand false 6) c) (ht : POk lib cx .expr t) (hf : POk lib cx .expr f) :
    POk lib cx (.operand true 7) (.node .cond [c, t, f]) := by
  obtain ⟨Tc, hcf, hcp, -⟩ := hc
  obtain ⟨Tt, -, htb, htp, -⟩ := ht
  obtain ⟨Tf, -, hfb, hfp, -⟩ := hf
  refine operand_ok (T := Tc ++ (Tt ++ (Tf ++ [⟨.Conditional, []⟩]))) ?_ ?_ (by simp)
  · exact form_facts [⟨_, _, _, hcf⟩, ⟨_, _, _, htb⟩, ⟨_, _, _, hfb⟩] cond_form (et := by txt_eq)
  · intro st
    exact (hcp _).append ((htp _).append ((hfp _).append (.tok rfl)))

theorem lambdaRef_ok {e : Syn} (h : POk lib cx .expr e) (hl : isLambda e = false) :
    POk lib cx (.operand true 1) (.node (.lambdaRef cx.path cx.stubPath) [e]) := by
  obtain ⟨T, hf, hb, hp, hi⟩ := h
  refine operand_ok (T := T ++ [⟨.LambdaRef, []⟩]) ?_ ?_ (by simp)
  · exact form_facts [⟨_, _, _, hf⟩] lambdaRef_form (et := by txt_eq)
  · intro st
    refine (hp _).append (.tok ?_)
    have : isLambda (regroup e) = false := by
      obtain ⟨op, args⟩ := e
      cases op <;> first | rfl | exact hl
    simp [buildStep, unaryStep, this, PState.push, regroup, regroupAll, SynOp.addsGroup]

theorem range_ok {a b : Syn} (ha : POk lib cx .expr a) (hb : POk lib cx .expr b) (hd : (synText lib b).head? ≠ some '.') :
    POk lib cx (.operand false 0) (.node (.range true true) [a, b]) := by
  obtain ⟨Ta, hfa, -, hpa, -⟩ := ha
  obtain ⟨Tb, hfb, -, hpb, -⟩ := hb
  have hdot : Facts (synText lib b) Tb ((.chr '.', .fail []) :: exprTable) := by
    refine facts_cons ?_ hfb
    intro s hs
    cases ht : synText lib b with
    | nil =>
      exfalso
      have := facts_head (facts_tail hfb) [' '] (by simp)
      rw [ht] at this
      exact absurd (parses_unique this (.chr_ok ' ' [])) (by simp)
    | cons c r =>
      refine .chr_no ?_
      rintro rfl
      rw [ht] at hd
      exact hd rfl
  refine operand_ok (T := ⟨.StartRange, []⟩ :: (Ta ++ (⟨.RangeOp, ['.', '.']⟩ :: (Tb ++ [⟨.Range, []⟩])))) ?_ ?_ (by simp)
  · exact form_facts [⟨_, _, _, hfa⟩, ⟨_, _, _, hdot⟩] range_form (et := by txt_eq)
  · intro st
    exact .cons rfl ((hpa _).append (.cons rfl ((hpb _).append (.tok rfl))))

/-! ### lists, indices, calls -/

theorem list_ok {l : List Syn} (h : ∀ a ∈ l, POk lib cx .elem a) : POk lib cx (.operand false 0) (.node .list l) := by
  cases l with
  | nil =>
    refine operand_ok (T := [⟨.StartList, []⟩, ⟨.List, []⟩]) ?_ ?_ (by simp)
    · exact form_facts [] list_nil (et := by simp [text_list, joinTxt]; txt_eq)
    · intro st
      exact .cons rfl (.tok rfl)
  | cons a l =>
    obtain ⟨Ta, hfa, -, hAa, -⟩ := h a (by simp)
    obtain ⟨T, hT, hA⟩ := tail_ok (l := l) (fun b hb => h b (by simp [hb]))
    refine operand_ok (T := ⟨.StartList, []⟩ :: (Ta ++ (T ++ [⟨.List, []⟩]))) ?_ ?_ (by simp)
    · exact form_facts [⟨_, _, _, hfa⟩, ⟨_, _, _, hT⟩] list_cons (et := by rw [text_elems]; txt_eq)
    · intro st
      refine .cons rfl ((hAa [] st).append ((hA _ st).append (.tok ?_)))
      simp [buildStep, listStep, PState.push, regroup, regroupAll_map, SynOp.addsGroup]

theorem dyn_ok {a : Syn} {l : List Syn} (ha : POk lib cx (.operand false 0) a) (hl : ∀ b ∈ l, POk lib cx .elem b) (hne : l ≠ [])
    (hi : ∀ i, l ≠ [.node (.int i) []]) : POk lib cx (.operand false 0) (.node .dyn [a, .node .list l]) := by
  obtain ⟨Ta, hfa, hpa, -⟩ := ha
  cases l with
  | nil => exact absurd rfl hne
  | cons b l =>
    obtain ⟨Tb, hfb, -, hAb, hib⟩ := hl b (by simp)
    suffices h : ∃ T, Appends lib cx T (l.map regroup) ∧ Facts (synText lib (.node .dyn [a, .node .list (b :: l)]))
        (Ta ++ (⟨.StartList, []⟩ :: (Tb ++ (T ++ [⟨.Indices, []⟩, ⟨.ChainedDynRef, []⟩])))) (nonIndex (closedTable 0)) by
      obtain ⟨T, hA, hf⟩ := h
      refine operand_ok hf ?_ (by simp)
      intro st
      refine (hpa _).append (.cons rfl ((hAb [] _).append ((hA _ _).append (.cons rfl (.tok ?_)))))
      simp [buildStep, binaryStep, PState.push, regroup, regroupAll, regroupAll_map, SynOp.addsGroup]
    by_cases hb : ∃ i, b = .node (.int i) []
    · cases l with
      | nil => obtain ⟨i, rfl⟩ := hb; exact absurd rfl (hi i)
      | cons c l =>
        obtain ⟨Tc, -, hbc, hAc, -⟩ := hl c (by simp)
        obtain ⟨T, hT, hA⟩ := tail_ok (l := l) (fun d hd => hl d (by simp [hd]))
        refine ⟨Tc ++ T, ?_, ?_⟩
        · intro L st
          have := (hAc L st).append (hA (L ++ [regroup c]) st)
          simpa using this
        · exact form_facts [⟨_, _, _, hfa⟩, ⟨_, _, _, hfb⟩, ⟨_, _, _, hbc⟩, ⟨_, _, _, hT⟩] dyn_more (et := by rw [text_dyn, text_elems]; txt_eq)
    · obtain ⟨T, hT, hA⟩ := tail_ok (l := l) (fun d hd => hl d (by simp [hd]))
      have hb' := facts_cons (T := Tb) (p := pIndexTail) (f := .fail []) (hib (fun i e => hb ⟨i, e⟩)) hfb
      exact ⟨T, hA, form_facts [⟨_, _, _, hfa⟩, ⟨_, _, _, hb'⟩, ⟨_, _, _, hT⟩] dyn_form (et := by rw [text_dyn, text_elems]; txt_eq)⟩

/-! ### paths -/

theorem fold_plain (leading : Bool) {w : Txt} (h : ∀ c ∈ w, c ≠ '.' ∧ c ≠ '[') (acc : List Txt) (cur : Txt) :
    w.foldl (pathStep leading) (acc, cur) = (acc, cur ++ w) := by
  induction w generalizing cur with
  | nil => simp
  | cons c w ih =>
    have hc := h c (by simp)
    rw [List.foldl_cons]
    have : pathStep leading (acc, cur) c = (acc, cur ++ [c]) := by simp [pathStep, hc.1, hc.2]
    rw [this, ih (fun d hd => h d (by simp [hd]))]
    simp

theorem keyChar_plain {c : Char} (h : isKeyChar c = true) : c ≠ '.' ∧ c ≠ '[' ∧ c ≠ ':' := by
  refine ⟨?_, ?_, ?_⟩ <;> (rintro rfl; exact absurd h (by decide))

theorem keyChars_all {k : Txt} (hk : KeyChars k) : k ≠ [] ∧ ∀ c ∈ k, isKeyChar c = true := by
  obtain ⟨c, w, rfl, hc, hw⟩ := hk
  refine ⟨by simp, ?_⟩
  intro d hd
  rcases List.mem_cons.mp hd with rfl | hd
  · exact word_key hc
  · exact hw d hd

theorem fold_comp (leading : Bool) {k : Txt} (hk : CompText k) (acc : List Txt) : k.foldl (pathStep leading) (acc, []) = (acc, k) := by
  rcases hk with hk | ⟨sg, d, rfl, hsg, -, hd⟩
  · rw [fold_plain leading (fun c hc => ⟨(keyChar_plain ((keyChars_all hk).2 c hc)).1, (keyChar_plain ((keyChars_all hk).2 c hc)).2.1⟩)]
    simp
  · rw [List.foldl_cons]
    have : pathStep leading (acc, []) '[' = (acc, ['[']) := by simp [pathStep]
    rw [this, fold_plain leading]
    · simp
    · intro c hc
      simp only [List.mem_append, List.mem_singleton] at hc
      rcases hc with (hc | hc) | rfl
      · rcases hsg with rfl | rfl
        · cases hc
        · simp only [List.mem_singleton] at hc; subst hc; decide
      · have := keyChar_plain (word_key (digit_word (hd c hc))); exact ⟨this.1, this.2.1⟩
      · decide

theorem comp_ne {k : Txt} (hk : CompText k) : k ≠ [] := by
  rcases hk with hk | ⟨sg, d, rfl, -⟩
  · exact (keyChars_all hk).1
  · simp

theorem fold_tail (leading : Bool) {P : List Txt} (hP : ∀ c ∈ P, CompText c) (acc : List Txt) {cur : Txt} (hc : cur ≠ []) :
    ∃ a b, (pathTail P).foldl (pathStep leading) (acc, cur) = (a, b) ∧ b ≠ [] ∧ a ++ [b] = acc ++ cur :: P := by
  induction P generalizing acc cur with
  | nil => exact ⟨acc, cur, rfl, hc, by simp⟩
  | cons k P ih =>
    have hk := hP k (by simp)
    obtain ⟨a, b, e, hb, hab⟩ := ih (fun c hc => hP c (by simp [hc])) (acc ++ [cur]) (comp_ne hk)
    refine ⟨a, b, ?_, hb, by rw [hab]; simp⟩
    have e1 : pathTail (k :: P) = '.' :: (k ++ pathTail P) := by simp [pathTail]
    have e2 : pathStep leading (acc, cur) '.' = (acc ++ [cur], []) := by simp [pathStep, hc]
    rw [e1, List.foldl_cons, List.foldl_append, e2, fold_comp leading hk, e]

theorem components_of {leading : Bool} {t : Txt} {a : List Txt} {b : Txt} (h : t.foldl (pathStep leading) ([], []) = (a, b)) (hb : b ≠ []) :
    pathComponents t leading = a ++ [b] := by
  unfold pathComponents
  simp only [h, hb, ne_eq, not_false_eq_true, if_true]

theorem components_rel {k : Txt} {P : List Txt} (hk : CompText k) (hP : ∀ c ∈ P, CompText c) (leading : Bool) :
    pathComponents (k ++ pathTail P) leading = k :: P := by
  obtain ⟨a, b, e, hb, hab⟩ := fold_tail leading hP [] (comp_ne hk)
  rw [components_of _ hb, hab]
  · rfl
  · rw [List.foldl_append, fold_comp leading hk, e]

theorem components_abs {k : Txt} {P : List Txt} (hk : CompText k) (hP : ∀ c ∈ P, CompText c) :
    pathComponents ('.' :: (k ++ pathTail P)) true = [] :: k :: P := by
  obtain ⟨a, b, e, hb, hab⟩ := fold_tail true hP [[]] (comp_ne hk)
  rw [components_of _ hb, hab]
  · rfl
  · rw [List.foldl_cons, List.foldl_append]
    have : pathStep true ([], []) '.' = ([[]], []) := rfl
    rw [this, fold_comp true hk, e]

theorem components_chain {P : List Txt} (hne : P ≠ []) (hP : ∀ c ∈ P, CompText c) : pathComponents (pathTail P) false = P := by
  cases P with
  | nil => exact absurd rfl hne
  | cons k P =>
    have hk := hP k (by simp)
    obtain ⟨a, b, e, hb, hab⟩ := fold_tail (P := P) false (fun c hc => hP c (by simp [hc])) [] (comp_ne hk)
    rw [components_of _ hb, hab]
    · rfl
    · have e1 : pathTail (k :: P) = '.' :: (k ++ pathTail P) := by simp [pathTail]
      rw [e1, List.foldl_cons, List.foldl_append]
      have : pathStep false ([], []) '.' = ([], []) := rfl
      rw [this, fold_comp false hk, e]

theorem join_path (k : Txt) (P : List Txt) : joinTxt ['.'] (k :: P) = k ++ pathTail P := by
  rw [joinTxt_cons]; rfl

theorem noColons {t : Txt} (h : ∀ c ∈ t, c ≠ ':') : splitLastColons t = none := by
  induction t with
  | nil => rfl
  | cons c t ih =>
    have h1 := ih (fun d hd => h d (by simp [hd]))
    have := h c (by simp)
    unfold splitLastColons
    simp only [h1]
    cases t with
    | nil => rfl
    | cons d t => simp [this]

theorem comp_noColon {k : Txt} (hk : CompText k) : ∀ c ∈ k, c ≠ ':' := by
  intro c hc
  rcases hk with hk | ⟨sg, d, rfl, hsg, -, hd⟩
  · exact (keyChar_plain ((keyChars_all hk).2 c hc)).2.2
  · simp only [List.mem_cons, List.mem_append, List.mem_singleton, List.not_mem_nil, or_false] at hc
    rcases hc with rfl | (hc | hc) | rfl
    · decide
    · rcases hsg with rfl | rfl
      · cases hc
      · simp only [List.mem_singleton] at hc; subst hc; decide
    · exact (keyChar_plain (word_key (digit_word (hd c hc)))).2.2
    · decide

theorem tail_noColon {P : List Txt} (hP : ∀ c ∈ P, CompText c) : ∀ c ∈ pathTail P, c ≠ ':' := by
  intro c hc
  simp only [pathTail, List.mem_flatMap, List.mem_cons] at hc
  obtain ⟨k, hk, rfl | hc⟩ := hc
  · decide
  · exact comp_noColon (hP k hk) c hc

theorem build_rel {k : Txt} {P : List Txt} (hk : CompText k) (hP : ∀ c ∈ P, CompText c) : buildRef (k ++ pathTail P) = .node (.ref [] (k :: P)) [] := by
  unfold buildRef
  rw [noColons, components_rel hk hP]
  intro c hc
  rcases List.mem_append.mp hc with hc | hc
  · exact comp_noColon hk c hc
  · exact tail_noColon hP c hc

theorem build_abs {k : Txt} {P : List Txt} (hk : CompText k) (hP : ∀ c ∈ P, CompText c) :
    buildRef ('.' :: (k ++ pathTail P)) = .node (.ref [] ([] :: k :: P)) [] := by
  unfold buildRef
  rw [noColons, components_abs hk hP]
  intro c hc
  rcases List.mem_cons.mp hc with rfl | hc
  · decide
  rcases List.mem_append.mp hc with hc | hc
  · exact comp_noColon hk c hc
  · exact tail_noColon hP c hc

theorem text_rel {k : Txt} {P : List Txt} (hk : k ≠ []) : synText lib (.node (.ref [] (k :: P)) []) = k ++ pathTail P := by
  have h : synText lib (.node (.ref [] (k :: P)) []) = refText [] (k :: P) := rfl
  rw [h]
  unfold refText
  have hne : ¬ (k :: P = [[]]) := by simp [hk]
  simp only [hne, if_false, List.isEmpty_nil, if_true, List.nil_append]
  exact join_path k P

theorem text_abs {k : Txt} {P : List Txt} : synText lib (.node (.ref [] ([] :: k :: P)) []) = '.' :: (k ++ pathTail P) := by
  have h : synText lib (.node (.ref [] ([] :: k :: P)) []) = refText [] ([] :: k :: P) := rfl
  rw [h]
  unfold refText
  have hne : ¬ (([] : Txt) :: k :: P = [[]]) := by simp
  simp only [hne, if_false, List.isEmpty_nil, if_true, List.nil_append]
  rw [join_path]
  simp [pathTail]

theorem ref_ok {k : Txt} {P : List Txt} (hk : FirstKey k) (hP : ∀ c ∈ P, CompText c) : POk lib cx (.operand false 0) (.node (.ref [] (k :: P)) []) := by
  have hr := ref_facts hk hP
  have hf : Facts (k ++ pathTail P) [⟨.Reference, k ++ pathTail P⟩] (nonIndex ((.chr '.', .fail []) :: closedTable 0)) :=
    form_facts [⟨_, _, _, hr⟩] ref_form
  refine ⟨[⟨.Reference, k ++ pathTail P⟩], ?_, ?_, ?_, by simp⟩
  · rw [text_rel (keyChars_all hk.key).1]
    exact facts_tail (facts_tail hf)
  · intro st
    refine .tok ?_
    simp [buildStep, build_rel (.inl hk.key) hP, PState.push, regroup, regroupAll, SynOp.addsGroup]
  · intro _
    rw [text_rel (keyChars_all hk.key).1]
    have := facts_head hf
    exact this

theorem absRef_ok {k : Txt} {P : List Txt} (hk : KeyChars k) (hP : ∀ c ∈ P, CompText c) : POk lib cx (.operand false 0) (.node (.ref [] ([] :: k :: P)) []) := by
  have hf : Facts ('.' :: (k ++ pathTail P)) [⟨.Reference, '.' :: (k ++ pathTail P)⟩] (nonIndex (closedTable 0)) :=
    form_facts [⟨_, _, _, key_facts hk⟩, ⟨_, _, _, refTail_facts hP⟩] absRef_form
      (eT := by simp [piecesToks, SEnv.items, SEnv.item, SEnv.text, pieceEnv, pieceToks, pieceTxt, contHole])
  refine operand_ok (T := [⟨.Reference, '.' :: (k ++ pathTail P)⟩]) (by rw [text_abs]; exact hf) ?_ (by simp)
  intro st
  refine .tok ?_
  simp [buildStep, build_abs (.inl hk) hP, PState.push, regroup, regroupAll, SynOp.addsGroup]

theorem qual_ok {a : Syn} {P : List Txt} (ha : POk lib cx .expr a) (hne : P ≠ []) (hP : ∀ c ∈ P, CompText c) :
    POk lib cx (.operand false 0) (.node (.qual P) [a]) := by
  obtain ⟨T, hf, hb, hp, hi⟩ := ha
  have ht : synText lib (.node (.qual P) [a]) = '(' :: (synText lib a ++ (')' :: pathTail P)) := by
    rw [text_qual]
    cases P with
    | nil => exact absurd rfl hne
    | cons k P =>
      have hk := hP k (by simp)
      unfold refText
      have hne : ¬ (k :: P = [[]]) := by simp [comp_ne hk]
      simp only [hne, if_false, List.isEmpty_nil, if_true, List.nil_append]
      rw [join_path]
      simp [pathTail]
  refine operand_ok (T := T ++ [⟨.Grouped, []⟩, ⟨.ChainedRef, pathTail P⟩]) ?_ ?_ (by simp)
  · rw [ht]
    exact form_facts [⟨_, _, _, hf⟩, ⟨_, _, _, path_facts hne hP⟩] qual_form
  · intro st
    refine (hp _).append (.cons rfl (.tok ?_))
    simp [buildStep, unaryStep, components_chain hne hP, PState.push, regroup, regroupAll, SynOp.addsGroup]

/-! ### calls -/

theorem join_tail (a : Syn) (l : List Syn) : joinTxt [',', ' '] ((a :: l).map (synText lib)) = synText lib a ++ tailText lib l := by
  rw [List.map_cons, joinTxt_cons]
  congr 1
  induction l with
  | nil => rfl
  | cons b l ih => simp only [List.map_cons, List.flatMap_cons, ih, tailText]; simp

theorem tail_append (l m : List Syn) : tailText lib (l ++ m) = tailText lib l ++ tailText lib m := by
  induction l with
  | nil => rfl
  | cons a l ih => simp [ih]

theorem text_call (curry : Bool) (f : Syn) (l : List Syn) : synText lib (.node (.call curry) (f :: l)) =
    synText lib f ++ (if curry then ['*'] else []) ++ ['('] ++ joinTxt [',', ' '] (l.map (synText lib)) ++ [')'] := by
  rw [← synTexts_map]; rfl

theorem isNamed_regroup (a : Syn) : isNamed (regroup a) = isNamed a := by
  obtain ⟨op, args⟩ := a
  cases op <;> rfl

theorem callArgs_split {ns ps : List Syn} (hn : ∀ a ∈ ns, isNamed a = true) (hp : ∀ a ∈ ps, isNamed a = false) :
    callArgs ((ns ++ ps).map regroup) = (ns ++ ps).map regroup := by
  have h1 : ∀ b ∈ ns.map regroup, isNamed b = true := by
    intro b hb
    obtain ⟨a, ha, rfl⟩ := List.mem_map.mp hb
    rw [isNamed_regroup]; exact hn a ha
  have h2 : ∀ b ∈ ps.map regroup, isNamed b = false := by
    intro b hb
    obtain ⟨a, ha, rfl⟩ := List.mem_map.mp hb
    rw [isNamed_regroup]; exact hp a ha
  unfold callArgs
  rw [List.map_append, List.filter_append, List.filter_append, List.filter_eq_self.mpr h1, List.filter_eq_nil_iff.mpr (by simpa using h2),
    List.filter_eq_nil_iff.mpr (by simpa using h1), List.filter_eq_self.mpr (by simpa using h2)]
  simp

/-- the tokens of a call -/
theorem call_push {curry : Bool} {f : Syn} {l : List Syn} {Tf A : List (Tok Rule)} (hf : Pushes lib cx Tf (regroup f)) (hA : Appends lib cx A (l.map regroup))
    (hc : callArgs (l.map regroup) = l.map regroup) :
    Pushes lib cx (Tf ++ (⟨.StartArguments, []⟩ :: (A ++ (⟨.ChainedCall, []⟩ :: (if curry then [⟨.Currying, []⟩] else []))))) (regroup (.node (.call curry) (f :: l))) := by
  intro st
  refine (hf st).append (.cons rfl ((hA [] _).append (.cons (st1 := .expr (.node (.call false) (regroup f :: l.map regroup)) :: st) ?_ ?_)))
  · simp [buildStep, PState.push, hc]
  · cases curry with
    | false => simpa [regroup, regroupAll, regroupAll_map, SynOp.addsGroup] using Runs.nil _
    | true =>
      refine .tok ?_
      simp [buildStep, PState.push, regroup, regroupAll, regroupAll_map, SynOp.addsGroup]

theorem regroup_call (f : Syn) (l : List Syn) (curry : Bool) : regroup (.node (.call curry) (f :: l)) = .node (.call curry) (regroup f :: l.map regroup) := by
  simp [regroup, regroupAll, regroupAll_map, SynOp.addsGroup]

theorem call_ok {curry : Bool} {f : Syn} {ns ps : List Syn} (hf : POk lib cx (.operand false 0) f) (hn : ∀ a ∈ ns, POk lib cx .named a)
    (hp : ∀ a ∈ ps, POk lib cx .elem a) (hn' : ∀ a ∈ ns, isNamed a = true) (hp' : ∀ a ∈ ps, isNamed a = false) :
    POk lib cx (.operand false 0) (.node (.call curry) (f :: (ns ++ ps))) := by
  obtain ⟨Tf, hff, hpf, -⟩ := hf
  have hc := callArgs_split hn' hp'
  suffices h : ∃ A, Appends lib cx A ((ns ++ ps).map regroup) ∧ Facts (synText lib (.node (.call curry) (f :: (ns ++ ps))))
      (Tf ++ (⟨.StartArguments, []⟩ :: (A ++ (⟨.ChainedCall, []⟩ :: (if curry then [⟨.Currying, []⟩] else []))))) (nonIndex (closedTable 0)) by
    obtain ⟨A, hA, h⟩ := h
    exact operand_ok h (call_push hpf hA hc) (by simp)
  cases ns with
  | nil =>
    cases ps with
    | nil =>
      refine ⟨[], fun L st => by simpa using Runs.nil _, ?_⟩
      cases curry
      · exact form_facts [⟨_, _, _, hff⟩] call_nil_form (et := by rw [text_call]; simp [joinTxt]; txt_eq)
      · exact form_facts [⟨_, _, _, hff⟩] curry_nil_form (et := by rw [text_call]; simp [joinTxt]; txt_eq)
    | cons a l =>
      obtain ⟨Ta, hfa, -, hAa, -⟩ := hp a (by simp)
      obtain ⟨T, hT, hA⟩ := tail_ok (l := l) (fun d hd => hp d (by simp [hd]))
      refine ⟨Ta ++ T, ?_, ?_⟩
      · intro L st
        have := (hAa L st).append (hA (L ++ [regroup a]) st)
        simpa using this
      · cases curry
        · exact form_facts [⟨_, _, _, hff⟩, ⟨_, _, _, hfa⟩, ⟨_, _, _, hT⟩] call_pos_form (et := by rw [text_call, List.nil_append, join_tail]; txt_eq)
        · exact form_facts [⟨_, _, _, hff⟩, ⟨_, _, _, hfa⟩, ⟨_, _, _, hT⟩] curry_pos_form (et := by rw [text_call, List.nil_append, join_tail]; txt_eq)
  | cons n l =>
    obtain ⟨Tn, hfn, -, hAn⟩ := hn n (by simp)
    obtain ⟨Tl, hl, hAl⟩ := namedTail_ok (l := l) (fun d hd => hn d (by simp [hd]))
    obtain ⟨T, hT, hA⟩ := tail_ok hp
    refine ⟨Tn ++ (Tl ++ T), ?_, ?_⟩
    · intro L st
      have := (hAn L st).append ((hAl (L ++ [regroup n]) st).append (hA _ st))
      simpa using this
    · cases curry
      · exact form_facts [⟨_, _, _, hff⟩, ⟨_, _, _, hfn⟩, ⟨_, _, _, hl⟩, ⟨_, _, _, hT⟩] call_named_form
          (et := by rw [text_call, List.cons_append, join_tail, tail_append]; txt_eq)
      · exact form_facts [⟨_, _, _, hff⟩, ⟨_, _, _, hfn⟩, ⟨_, _, _, hl⟩, ⟨_, _, _, hT⟩] curry_named_form
          (et := by rw [text_call, List.cons_append, join_tail, tail_append]; txt_eq)

/-! ### maps and scopes -/

/-- the text of an assignment -/
def assignText (lib : PLib) (p : Syn × Syn) : Txt := synText lib p.1 ++ (' ' :: '=' :: ' ' :: synText lib p.2)
/-- the text of further assignments -/
def assignTail (lib : PLib) : List (Syn × Syn) → Txt
  | [] => []
  | p :: r => ',' :: ' ' :: (assignText lib p ++ assignTail lib r)
/-- keys and values with parentheses -/
def pairsRe (kvs : List (Syn × Syn)) : List Syn := (pairArgs kvs).map regroup

theorem assignTexts_pairs (kvs : List (Syn × Syn)) : assignTexts (synTexts lib (pairArgs kvs)) = kvs.map (assignText lib) := by
  induction kvs with
  | nil => rfl
  | cons p r ih =>
    have : pairArgs (p :: r) = p.1 :: p.2 :: pairArgs r := rfl
    rw [this, synTexts, synTexts, assignTexts, ih]
    simp [assignText]

theorem join_assigns (p : Syn × Syn) (r : List (Syn × Syn)) : joinTxt [',', ' '] ((p :: r).map (assignText lib)) = assignText lib p ++ assignTail lib r := by
  rw [List.map_cons, joinTxt_cons]
  congr 1
  induction r with
  | nil => rfl
  | cons q r ih => simp only [List.map_cons, List.flatMap_cons, ih, assignTail]; simp

theorem assign_ok {p : Syn × Syn} (hk : POk lib cx .expr p.1) (hv : POk lib cx .expr p.2) :
    ∃ T, Facts (assignText lib p) T assignTable ∧ Facts (' ' :: assignText lib p) T assignBlankTable ∧ Assigns lib cx T [regroup p.1, regroup p.2] := by
  obtain ⟨Tk, hkf, hkb, hkp, -⟩ := hk
  obtain ⟨Tv, -, hvb, hvp, -⟩ := hv
  refine ⟨Tk ++ (Tv ++ [⟨.Assignment, []⟩]), ?_, ?_, ?_⟩
  · exact form_facts [⟨_, _, _, hkf⟩, ⟨_, _, _, hvb⟩] assign_form (et := by simp [assignText]; txt_eq)
  · exact form_facts [⟨_, _, _, hkb⟩, ⟨_, _, _, hvb⟩] assignBlank_form (et := by simp [assignText]; txt_eq)
  · intro as st
    exact (hkp _).append ((hvp _).append (.tok rfl))

theorem Assigns.append {T U : List (Tok Rule)} {a b : List Syn} (h1 : Assigns lib cx T a) (h2 : Assigns lib cx U b) : Assigns lib cx (T ++ U) (a ++ b) := by
  intro as st
  have := (h1 as st).append (h2 _ st)
  simpa using this

theorem assignTail_ok {p : Syn × Syn} {r : List (Syn × Syn)} (hk : ∀ q ∈ p :: r, POk lib cx .expr q.1) (hv : ∀ q ∈ p :: r, POk lib cx .expr q.2) :
    ∃ T, Facts (assignTail lib (p :: r)) T assignTailTable ∧ Assigns lib cx T (pairsRe (p :: r)) := by
  induction r generalizing p with
  | nil =>
    obtain ⟨T, -, hb, hA⟩ := assign_ok (hk p (by simp)) (hv p (by simp))
    exact ⟨T, form_facts [⟨_, _, _, hb⟩] assignTail_one (et := by simp [assignTail]; txt_eq), hA⟩
  | cons q r ih =>
    obtain ⟨T, -, hb, hA⟩ := assign_ok (hk p (by simp)) (hv p (by simp))
    obtain ⟨U, hU, hAU⟩ := ih (p := q) (fun x hx => hk x (List.mem_cons_of_mem _ hx)) (fun x hx => hv x (List.mem_cons_of_mem _ hx))
    refine ⟨T ++ U, form_facts [⟨_, _, _, hb⟩, ⟨_, _, _, hU⟩] assignTail_more (et := by show _ = ',' :: ' ' :: (assignText lib p ++ assignTail lib (q :: r)); txt_eq), ?_⟩
    have := hA.append hAU
    exact this

theorem assigns_ok {p : Syn × Syn} {r : List (Syn × Syn)} (hk : ∀ q ∈ p :: r, POk lib cx .expr q.1) (hv : ∀ q ∈ p :: r, POk lib cx .expr q.2) :
    ∃ T, Facts (assignText lib p ++ assignTail lib r) T assignsTable ∧ Assigns lib cx T (pairsRe (p :: r)) := by
  obtain ⟨T, hT, -, hA⟩ := assign_ok (hk p (by simp)) (hv p (by simp))
  cases r with
  | nil => exact ⟨T, form_facts [⟨_, _, _, hT⟩] assigns_one (et := by simp [assignTail]; txt_eq), hA⟩
  | cons q r =>
    obtain ⟨U, hU, hAU⟩ := assignTail_ok (p := q) (fun x hx => hk x (List.mem_cons_of_mem _ hx)) (fun x hx => hv x (List.mem_cons_of_mem _ hx))
    refine ⟨T ++ U, form_facts [⟨_, _, _, hT⟩, ⟨_, _, _, hU⟩] assigns_more, ?_⟩
    have := hA.append hAU
    exact this

theorem text_map_nil : synText lib (.node .map (pairArgs [])) = ['{', ' ', '}'] := rfl
theorem text_map_cons (p : Syn × Syn) (r : List (Syn × Syn)) : synText lib (.node .map (pairArgs (p :: r))) =
    ['{', ' '] ++ (assignText lib p ++ assignTail lib r) ++ [' ', '}'] := by
  rw [← join_assigns, ← assignTexts_pairs]; rfl

theorem map_ok {kvs : List (Syn × Syn)} (hk : ∀ q ∈ kvs, POk lib cx .expr q.1) (hv : ∀ q ∈ kvs, POk lib cx .expr q.2) :
    POk lib cx (.operand false 0) (.node .map (pairArgs kvs)) := by
  cases kvs with
  | nil =>
    refine operand_ok (T := [⟨.CreateMap, []⟩]) ?_ (fun st => .tok rfl) (by simp)
    exact form_facts [] map_nil (et := by rw [text_map_nil]; txt_eq)
  | cons p r =>
    obtain ⟨T, hT, hA⟩ := assigns_ok hk hv
    refine operand_ok (T := ⟨.CreateMap, []⟩ :: T) ?_ ?_ (by simp)
    · exact form_facts [⟨_, _, _, hT⟩] map_cons (et := by rw [text_map_cons]; txt_eq)
    · intro st
      refine .cons rfl ?_
      have := hA [] st
      simpa [pairsRe, regroup, regroupAll_map, SynOp.addsGroup] using this

theorem dropLast_texts (l : List Syn) (e : Syn) : (synTexts lib (l ++ [e])).dropLast = synTexts lib l := by
  rw [synTexts_map, synTexts_map]; simp

theorem text_scope (kvs : List (Syn × Syn)) (e : Syn) : synText lib (.node .scope (pairArgs kvs ++ [e])) =
    ['('] ++ joinTxt [',', ' '] (kvs.map (assignText lib)) ++ [' ', ')', ' '] ++ synText lib e := by
  have h : synText lib (.node .scope (pairArgs kvs ++ [e])) =
    ['('] ++ joinTxt [',', ' '] (assignTexts (synTexts lib (pairArgs kvs ++ [e])).dropLast) ++ [' ', ')', ' '] ++ (synTexts lib (pairArgs kvs ++ [e])).getLastD [] := rfl
  rw [h, dropLast_texts, assignTexts_pairs]
  congr 1
  rw [synTexts_map]; simp

theorem scope_ok {kvs : List (Syn × Syn)} {e : Syn} (hk : ∀ q ∈ kvs, POk lib cx .expr q.1) (hv : ∀ q ∈ kvs, POk lib cx .expr q.2)
    (he : POk lib cx .expr e) : POk lib cx .expr (.node .scope (pairArgs kvs ++ [e])) := by
  obtain ⟨Te, hfe, -, hpe, -⟩ := he
  suffices h : ∃ T, Facts (synText lib (.node .scope (pairArgs kvs ++ [e]))) (⟨.CreateScope, []⟩ :: (T ++ Te)) (nonIndex scopeTable) ∧ Assigns lib cx T (pairsRe kvs) by
    obtain ⟨T, hT, hA⟩ := h
    refine ⟨⟨.CreateScope, []⟩ :: (T ++ Te ++ [⟨.Scoped, []⟩]), ?_, ?_, ?_, idx_other (facts_head hT)⟩
    · exact form_facts [⟨_, _, _, facts_tail hT⟩] scope_expr
    · exact form_facts [⟨_, _, _, facts_tail hT⟩] scope_blank
    · intro st
      refine .cons rfl (((hA [] st).append (hpe _)).append (.tok ?_))
      simp [buildStep, PState.push, pairsRe, regroup, regroupAll_map, SynOp.addsGroup]
  cases kvs with
  | nil =>
    refine ⟨[], form_facts [⟨_, _, _, hfe⟩] scope_nil (et := by rw [text_scope]; simp [joinTxt]; txt_eq), ?_⟩
    intro as st
    simpa [pairsRe, pairArgs] using Runs.nil _
  | cons p r =>
    obtain ⟨T, hT, hA⟩ := assigns_ok hk hv
    exact ⟨T, form_facts [⟨_, _, _, hT⟩, ⟨_, _, _, hfe⟩] scope_cons (et := by rw [text_scope, join_assigns]; txt_eq), hA⟩

/-! ### lambda expressions -/

/-- the text of further parameters -/
def nameTail (l : List Txt) : Txt := l.flatMap (fun n => ',' :: n)
def defaultTail (lib : PLib) (l : List (Txt × Syn)) : Txt := l.flatMap (fun d => ',' :: (d.1 ++ '=' :: synText lib d.2))

theorem AddsNames.append {T U : List (Tok Rule)} {a b : List (Txt × Option Syn)} (h1 : AddsNames lib cx T a) (h2 : AddsNames lib cx U b) :
    AddsNames lib cx (T ++ U) (a ++ b) := by
  intro L v st
  have := (h1 L v st).append (h2 _ v st)
  simpa using this

theorem AddsNames.nil : AddsNames lib cx [] [] := by
  intro L v st
  simpa using Runs.nil _

theorem adds_name (n : Txt) : AddsNames lib cx [⟨.Name, n⟩, ⟨.NextName, []⟩] [(n, none)] := fun _ _ _ => .cons rfl (.tok rfl)

theorem setLast_append (L : List (Txt × Option Syn)) (n : Txt) (x : Option Syn) (d : Syn) : setLastDefault (L ++ [(n, x)]) d = L ++ [(n, some d)] := by
  simp [setLastDefault]

theorem default_step (L : List (Txt × Option Syn)) (n : Txt) (d : Syn) (v : Bool) (st : List StackItem) :
    buildStep lib cx { stack := .expr d :: .names (L ++ [(n, none)]) v :: st } ⟨.DefaultValue, []⟩ = .ok { stack := .names (L ++ [(n, some d)]) v :: st } := by
  rw [← setLast_append L n none d]
  cases L <;> rfl

theorem adds_default {T : List (Tok Rule)} {n : Txt} {d : Syn} (h : Pushes lib cx T d) :
    AddsNames lib cx (⟨.Name, n⟩ :: ⟨.NextName, []⟩ :: (T ++ [⟨.DefaultValue, []⟩])) [(n, some d)] :=
  fun L v st => .cons rfl (.cons rfl ((h _).append (.tok (default_step L n d v st))))

theorem nameTail_ok {l : List Txt} (h : ∀ n ∈ l, NameText n) :
    ∃ T, Facts (nameTail l) T nameTailTable ∧ AddsNames lib cx T (l.map (fun n => (n, none))) := by
  induction l with
  | nil => exact ⟨[], form_facts [] nameTail_nil (et := by rfl), AddsNames.nil⟩
  | cons n l ih =>
    obtain ⟨T, hT, hA⟩ := ih (fun m hm => h m (by simp [hm]))
    have hn := name_facts (h n (by simp))
    refine ⟨[⟨.Name, n⟩, ⟨.NextName, []⟩] ++ T, form_facts [⟨_, _, _, hn⟩, ⟨_, _, _, hT⟩] nameTail_cons (et := by simp [nameTail]; txt_eq), ?_⟩
    exact (adds_name n).append hA

theorem defaultTail_ok {l : List (Txt × Syn)} (hn : ∀ d ∈ l, NameText d.1) (h : ∀ d ∈ l, POk lib cx .expr d.2) :
    ∃ T, Facts (defaultTail lib l) T defaultTailTable ∧ AddsNames lib cx T (l.map (fun d => (d.1, some (regroup d.2)))) := by
  induction l with
  | nil => exact ⟨[], form_facts [] defaultTail_nil (et := by rfl), AddsNames.nil⟩
  | cons d l ih =>
    obtain ⟨T, hT, hA⟩ := ih (fun m hm => hn m (by simp [hm])) (fun m hm => h m (by simp [hm]))
    have hnf := name_facts (hn d (by simp))
    obtain ⟨Td, hd, -, hdp, -⟩ := h d (by simp)
    refine ⟨(⟨.Name, d.1⟩ :: ⟨.NextName, []⟩ :: (Td ++ [⟨.DefaultValue, []⟩])) ++ T,
      form_facts [⟨_, _, _, hnf⟩, ⟨_, _, _, hd⟩, ⟨_, _, _, hT⟩] defaultTail_cons (et := by simp [defaultTail]; txt_eq), ?_⟩
    exact (adds_default hdp).append hA

/-- the parameters as the parser collects them -/
def lamParams (ns : List Txt) (ds : List (Txt × Syn)) : List (Txt × Option Syn) :=
  ns.map (fun n => (n, none)) ++ ds.map (fun d => (d.1, some (regroup d.2)))

/-- the text of the parameters -/
def lamText (lib : PLib) (ns : List Txt) (ds : List (Txt × Syn)) : Txt :=
  joinTxt [','] (ns ++ ds.map (fun d => d.1 ++ '=' :: synText lib d.2))

/-- the text of the dots -/
def dots (v : Bool) : Txt := if v then ['.', '.', '.'] else []

theorem lamText_names (n : Txt) (ns : List Txt) : lamText lib (n :: ns) [] = n ++ nameTail ns := by
  unfold lamText
  rw [List.map_nil, List.append_nil, joinTxt_cons]
  rfl

theorem lamText_defaults {ns ms : List Txt} {m : Txt} {d : Txt × Syn} (ds : List (Txt × Syn)) (h : ns ++ [d.1] = m :: ms) :
    lamText lib ns (d :: ds) = m ++ (nameTail ms ++ ('=' :: (synText lib d.2 ++ defaultTail lib ds))) := by
  unfold lamText
  cases ns with
  | nil =>
    simp only [List.nil_append, List.cons.injEq] at h
    obtain ⟨rfl, rfl⟩ := h
    rw [List.map_cons, List.nil_append, joinTxt_cons]
    simp [nameTail, defaultTail, List.flatMap_map]
  | cons n ns =>
    simp only [List.cons_append, List.cons.injEq] at h
    obtain ⟨rfl, rfl⟩ := h
    rw [List.cons_append, joinTxt_cons]
    simp [nameTail, defaultTail, List.flatMap_map]

/-- the tokens of the parameters -/
def LamToks (lib : PLib) (cx : PCtx) (T : List (Tok Rule)) (ns : List Txt) (ds : List (Txt × Syn)) (v : Bool) : Prop :=
  ∀ st, Runs lib cx T (.names [] false :: st) (.names (lamParams ns ds) v :: st)

theorem LamToks.of {T : List (Tok Rule)} {ns : List Txt} {ds : List (Txt × Syn)} (v : Bool) (h : AddsNames lib cx T (lamParams ns ds)) :
    LamToks lib cx (T ++ (if v then [⟨.VarParams, []⟩] else [])) ns ds v := by
  intro st
  cases v with
  | false =>
    have := h [] false st
    simpa using this
  | true => exact (h [] false st).append (.tok rfl)

theorem params_ok {ns : List Txt} {ds : List (Txt × Syn)} {v : Bool} (hn : ∀ n ∈ ns, NameText n) (hdn : ∀ d ∈ ds, NameText d.1)
    (hd : ∀ d ∈ ds, POk lib cx .expr d.2) (hv : v = true → ns ≠ [] ∨ ds ≠ []) :
    ∃ T, Facts (lamText lib ns ds ++ dots v) T paramsTable ∧ LamToks lib cx T ns ds v := by
  cases ds with
  | nil =>
    cases ns with
    | nil =>
      have : v = false := by
        cases v with
        | false => rfl
        | true => have := hv rfl; simp at this
      subst this
      exact ⟨[], form_facts [] params_nil (et := by simp [lamText, joinTxt, dots]; txt_eq), fun st => Runs.nil _⟩
    | cons n ns =>
      have hnf := name_facts (hn n (by simp))
      obtain ⟨T, hT, hA⟩ := nameTail_ok (lib := lib) (cx := cx) (l := ns) (fun m hm => hn m (by simp [hm]))
      refine ⟨[⟨.Name, n⟩, ⟨.NextName, []⟩] ++ T ++ (if v then [⟨.VarParams, []⟩] else []), ?_, LamToks.of v ?_⟩
      · cases v with
        | false => exact form_facts [⟨_, _, _, hnf⟩, ⟨_, _, _, hT⟩] params_names (et := by rw [lamText_names]; simp [dots]; txt_eq)
        | true => exact form_facts [⟨_, _, _, hnf⟩, ⟨_, _, _, hT⟩] params_names_var (et := by rw [lamText_names]; simp [dots]; txt_eq)
      · have := (adds_name (lib := lib) (cx := cx) n).append hA
        simpa [lamParams] using this
  | cons d ds =>
    cases e : ns ++ [d.1] with
    | nil => simp at e
    | cons m ms =>
      have hall : ∀ x ∈ m :: ms, NameText x := by
        rw [← e]
        intro x hx
        rcases List.mem_append.mp hx with hx | hx
        · exact hn x hx
        · rw [List.mem_singleton.mp hx]; exact hdn d (by simp)
      have hnf := name_facts (hall m (by simp))
      obtain ⟨T, hT, hA⟩ := nameTail_ok (lib := lib) (cx := cx) (l := ms) (fun x hx => hall x (by simp [hx]))
      obtain ⟨U, hU, hAU⟩ := defaultTail_ok (l := ds) (fun x hx => hdn x (by simp [hx])) (fun x hx => hd x (by simp [hx]))
      obtain ⟨Td, hdf, -, hdp, -⟩ := hd d (by simp)
      refine ⟨[⟨.Name, m⟩, ⟨.NextName, []⟩] ++ T ++ (Td ++ [⟨.DefaultValue, []⟩]) ++ U ++ (if v then [⟨.VarParams, []⟩] else []), ?_, LamToks.of v ?_⟩
      · cases v with
        | false => exact form_facts [⟨_, _, _, hnf⟩, ⟨_, _, _, hT⟩, ⟨_, _, _, hdf⟩, ⟨_, _, _, hU⟩] params_defaults (et := by rw [lamText_defaults ds e]; simp [dots]; txt_eq)
        | true => exact form_facts [⟨_, _, _, hnf⟩, ⟨_, _, _, hT⟩, ⟨_, _, _, hdf⟩, ⟨_, _, _, hU⟩] params_defaults_var (et := by rw [lamText_defaults ds e]; simp [dots]; txt_eq)
      · intro L w st
        have h1 := ((adds_name (lib := lib) (cx := cx) m).append hA) L w st
        have e2 : [(m, (none : Option Syn))] ++ ms.map (fun n => (n, none)) = ns.map (fun n => (n, none)) ++ [(d.1, none)] := by
          have := congrArg (List.map (fun n => (n, (none : Option Syn)))) e
          simpa using this.symm
        rw [e2] at h1
        have h2 := hdp (.names (L ++ (ns.map (fun n => (n, none)) ++ [(d.1, none)])) w :: st)
        have h3 : Runs lib cx [⟨.DefaultValue, []⟩] (.expr (regroup d.2) :: .names (L ++ (ns.map (fun n => (n, none)) ++ [(d.1, none)])) w :: st)
            (.names (L ++ ns.map (fun n => (n, none)) ++ [(d.1, some (regroup d.2))]) w :: st) := by
          rw [← List.append_assoc]
          exact .tok (default_step _ _ _ _ _)
        have := (h1.append (h2.append h3)).append (hAU _ w st)
        simpa [lamParams] using this

theorem paramTexts_lam (ns : List Txt) (ds : List (Txt × Syn)) (r : List Txt) :
    paramTexts (ns.map (fun n => (n, false)) ++ ds.map (fun d => (d.1, true))) (ds.map (fun d => synText lib d.2) ++ r) =
      ns ++ ds.map (fun d => d.1 ++ '=' :: synText lib d.2) := by
  induction ns with
  | nil =>
    induction ds with
    | nil => rfl
    | cons d ds ih =>
      simp only [List.map_nil, List.nil_append, List.map_cons, List.cons_append, paramTexts] at ih ⊢
      rw [ih]
  | cons n ns ih =>
    simp only [List.map_cons, List.cons_append] at ih ⊢
    rw [paramTexts, ih]
    simp

theorem text_lambda (ns : List Txt) (ds : List (Txt × Syn)) (v : Bool) (b : Syn) :
    synText lib (lambdaSyn ns ds v b) = "lambda|".toList ++ (lamText lib ns ds ++ dots v) ++ "|->".toList ++ synText lib b := by
  have h : synText lib (lambdaSyn ns ds v b) = ['l', 'a', 'm', 'b', 'd', 'a'] ++ lambdaText (ns.map (fun n => (n, false)) ++ ds.map (fun d => (d.1, true))) v
      (synTexts lib (ds.map (·.2) ++ [b])) := rfl
  rw [h, synTexts_map, List.map_append, List.map_map]
  have e : List.map (synText lib ∘ fun d : Txt × Syn => d.2) ds = ds.map (fun d => synText lib d.2) := rfl
  rw [e]
  unfold lambdaText
  rw [paramTexts_lam]
  simp [lamText, dots]

theorem mkLambda_regroup (ns : List Txt) (ds : List (Txt × Syn)) (v : Bool) (b : Syn) :
    mkLambda (lamParams ns ds) v (regroup b) = regroup (lambdaSyn ns ds v b) := by
  have h1 : (lamParams ns ds).map (fun p => (p.1, p.2.isSome)) = ns.map (fun n => (n, false)) ++ ds.map (fun d => (d.1, true)) := by
    unfold lamParams
    rw [List.map_append, List.map_map, List.map_map]
    rfl
  have h2 : (lamParams ns ds).filterMap (·.2) = ds.map (fun d => regroup d.2) := by
    simp [lamParams, List.filterMap_append, List.filterMap_map]
  unfold mkLambda
  rw [h1, h2]
  simp [lambdaSyn, regroup, regroupAll_map, SynOp.addsGroup]

theorem lam_ok {ns : List Txt} {ds : List (Txt × Syn)} {v : Bool} {b : Syn} (hn : ∀ n ∈ ns, NameText n) (hdn : ∀ d ∈ ds, NameText d.1)
    (hd : ∀ d ∈ ds, POk lib cx .expr d.2) (hb : POk lib cx .expr b) (hv : v = true → ns ≠ [] ∨ ds ≠ []) : POk lib cx .lam (lambdaSyn ns ds v b) := by
  obtain ⟨T, hT, hA⟩ := params_ok hn hdn hd hv
  obtain ⟨Tb, hbf, -, hbp, -⟩ := hb
  refine ⟨rfl, _, _, T, Tb, text_lambda ns ds v b, hT, hbf, ?_⟩
  intro st
  refine .cons rfl (((hA _).append (hbp _)).append (.tok ?_))
  simp [buildStep, PState.push, mkLambda_regroup]

theorem lambda_ok {e : Syn} (h : POk lib cx .lam e) : POk lib cx (.operand true 1) e := by
  obtain ⟨-, p, t, Tp, Tb, e1, hp, ht, hpush⟩ := h
  refine operand_ok (T := ⟨.StartParams, []⟩ :: (Tp ++ Tb ++ [⟨.LambdaExpr, []⟩])) ?_ hpush (by simp)
  rw [e1]
  exact form_facts [⟨_, _, _, hp⟩, ⟨_, _, _, ht⟩] lambda_form (et := by txt_eq)

theorem lastLambda_two (a l : Syn) : lastLambda [a, l] = isLambda l := rfl

theorem lambdaArg_lam (p t : Txt) : lambdaArg true ("lambda|".toList ++ p ++ "|->".toList ++ t) = '|' :: (p ++ ('|' :: '-' :: '>' :: t)) := by
  simp [lambdaArg]

theorem all_mem {α : Type} {P : α → Bool} {l : List α} (h : l.all P = true) {x : α} (hx : x ∈ l) : P x = true := List.all_eq_true.mp h x hx

theorem mapOp_text {op : SynOp} (h : MapOp op) (a l : Syn) (hl : isLambda l = true) :
    ∃ x ∈ mappingForms, synText lib (.node op [a, l]) = x.1 ++ synText lib a ++ lambdaArg true (synText lib l) ++ [x.2.1] ∧
      ∀ (a' l' : Syn) (st : List StackItem), buildStep lib cx { stack := .expr l' :: .expr a' :: st } ⟨x.2.2, []⟩ = .ok { stack := .expr (.node op [a', l']) :: st } := by
  rw [← hl]
  rcases h with c | c | c | _
  · cases c
    · exact ⟨_, List.mem_cons_self, rfl, fun _ _ _ => rfl⟩
    · exact ⟨_, .tail _ List.mem_cons_self, rfl, fun _ _ _ => rfl⟩
  · cases c
    · exact ⟨_, .tail _ (.tail _ List.mem_cons_self), rfl, fun _ _ _ => rfl⟩
    · exact ⟨_, .tail _ (.tail _ (.tail _ List.mem_cons_self)), rfl, fun _ _ _ => rfl⟩
  · cases c
    · exact ⟨_, .tail _ (.tail _ (.tail _ (.tail _ List.mem_cons_self))), rfl, fun _ _ _ => rfl⟩
    · exact ⟨_, .tail _ (.tail _ (.tail _ (.tail _ (.tail _ List.mem_cons_self)))), rfl, fun _ _ _ => rfl⟩
  · exact ⟨_, .tail _ (.tail _ (.tail _ (.tail _ (.tail _ (.tail _ List.mem_cons_self))))), rfl, fun _ _ _ => rfl⟩

theorem regroup_plain {op : SynOp} (h : op.addsGroup = false) (l : List Syn) : regroup (.node op l) = .node op (l.map regroup) := by
  simp [regroup, regroupAll_map, h]

theorem mapping_ok {op : SynOp} {o : Bool} {a l : Syn} (hop : MapOp op) (ha : POk lib cx (.operand o 8) a) (hl : POk lib cx .lam l) :
    POk lib cx (.operand false 0) (.node op [a, l]) := by
  obtain ⟨Ta, haf, hap, -⟩ := ha
  obtain ⟨hlam, p, t, Tp, Tb, e1, hp, ht, hpush⟩ := hl
  obtain ⟨x, hx, htxt, hstep⟩ := mapOp_text (lib := lib) (cx := cx) hop a l hlam
  rw [e1, lambdaArg_lam] at htxt
  refine operand_ok (T := Ta ++ ((⟨.StartParams, []⟩ :: (Tp ++ Tb ++ [⟨.LambdaExpr, []⟩])) ++ [⟨x.2.2, []⟩])) ?_ ?_ (by simp)
  · rw [htxt]
    cases o
    · have := all_mem (all_mem mapping_form (x := closedTable 8) (by simp)) hx
      exact form_facts [⟨_, _, _, haf⟩, ⟨_, _, _, hp⟩, ⟨_, _, _, ht⟩] this (ht := by rw [noFin_chars]; rfl) (et := by simp [piecesText, text_chars]; txt_eq)
    · have := all_mem (all_mem mapping_form (x := openTable 8) (by simp)) hx
      exact form_facts [⟨_, _, _, haf⟩, ⟨_, _, _, hp⟩, ⟨_, _, _, ht⟩] this (ht := by rw [noFin_chars]; rfl) (et := by simp [piecesText, text_chars]; txt_eq)
  · intro st
    rw [regroup_plain (by cases hop <;> rfl)]
    exact (hap _).append ((hpush _).append (.tok (hstep _ _ _)))

theorem sum_ok {o o' : Bool} {a i l : Syn} (ha : POk lib cx (.operand o 8) a) (hi : POk lib cx (.operand o' 8) i) (hl : POk lib cx .lam l) :
    POk lib cx (.operand false 0) (.node .sum [a, i, l]) := by
  obtain ⟨Ta, haf, hap, -⟩ := ha
  obtain ⟨Ti, hif, hip, -⟩ := hi
  obtain ⟨hlam, p, t, Tp, Tb, e1, hp, ht, hpush⟩ := hl
  have htxt := text_sum lib a i l
  rw [hlam, e1, lambdaArg_lam] at htxt
  refine operand_ok (T := Ta ++ (Ti ++ ((⟨.StartParams, []⟩ :: (Tp ++ Tb ++ [⟨.LambdaExpr, []⟩])) ++ [⟨.Sum, []⟩]))) ?_ ?_ (by simp)
  · rw [htxt]
    have h1 : (if o then openTable 8 else closedTable 8) ∈ [closedTable 8, openTable 8] := by cases o <;> simp
    have h2 : (if o' then openTable 8 else closedTable 8) ∈ [closedTable 8, openTable 8] := by cases o' <;> simp
    have := all_mem (all_mem sum_form h1) h2
    exact form_facts [⟨_, _, _, haf⟩, ⟨_, _, _, hif⟩, ⟨_, _, _, hp⟩, ⟨_, _, _, ht⟩] this (et := by simp [piecesText, text_chars]; txt_eq)
  · intro st
    exact (hap _).append ((hip _).append ((hpush _).append (.tok rfl)))

/-! ### literals -/

theorem literal_ok {t : Txt} {op : SynOp} {T : List (Tok Rule)} (h : Facts t T ((.chr '.', .fail []) :: nonIndex (closedTable 1))) (ht : synText lib (.node op []) = t)
    (hp : Pushes lib cx T (regroup (.node op []))) : POk lib cx (.operand false 1) (.node op []) :=
  operand_ok (by rw [ht]; exact facts_tail h) hp (by simp)

theorem nil_ok : POk lib cx (.operand false 1) (.node .nil []) :=
  literal_ok (form_facts (T := [⟨.Nil, []⟩]) (t := "nil".toList) [] (all_mem literal_form (x := literalForms[0]) (List.getElem_mem _)) (et := by rfl) (eT := by rfl)) rfl
    (fun _ => .tok rfl)
theorem undef_ok : POk lib cx (.operand false 1) (.node .undef []) :=
  literal_ok (form_facts (T := [⟨.Undefined, []⟩]) (t := "~~".toList) [] (all_mem literal_form (x := literalForms[1]) (List.getElem_mem _)) (et := by rfl) (eT := by rfl)) rfl
    (fun _ => .tok rfl)
theorem bool_ok (b : Bool) : POk lib cx (.operand false 1) (.node (.bool b) []) := by
  cases b
  · exact literal_ok (form_facts (T := [⟨.Boolean, "false".toList⟩]) (t := "false".toList) [] (all_mem literal_form (x := literalForms[3]) (List.getElem_mem _)) (et := by rfl) (eT := by rfl)) rfl
      (fun _ => .tok rfl)
  · exact literal_ok (form_facts (T := [⟨.Boolean, "true".toList⟩]) (t := "true".toList) [] (all_mem literal_form (x := literalForms[2]) (List.getElem_mem _)) (et := by rfl) (eT := by rfl)) rfl
      (fun _ => .tok rfl)
theorem auto_ok : POk lib cx (.operand false 1) (.node (.auto cx.path) []) :=
  literal_ok (form_facts (T := [⟨.Auto, []⟩]) (t := "auto".toList) [] auto_form (et := by rfl) (eT := by rfl)) rfl (fun _ => .tok rfl)

theorem str_ok {s : Txt} (h : PlainString s) : POk lib cx (.operand false 1) (.node (.str s) []) := by
  refine literal_ok (T := [⟨.String, goQuote lib s⟩]) (form_facts (t := goQuote lib s) [⟨_, _, _, str_facts lib h⟩] str_form (et := by simp [goQuote]; txt_eq)
    (eT := by simp [piecesToks, SEnv.items, SEnv.item, SEnv.text, pieceEnv, pieceToks, pieceTxt, contHole, goQuote])) rfl ?_
  intro st
  refine .tok ?_
  have := jsonString_quote lib h.chars
  simp [buildStep, this, PState.push, regroup, regroupAll, SynOp.addsGroup]

theorem intLiteral_text (i : Int) : IntLiteral (intText i) i := by
  have nounder : ∀ n, (Nat.toDigits 10 n).filter (fun c => c ≠ '_') = Nat.toDigits 10 n := by
    intro n
    refine List.filter_eq_self.mpr ?_
    intro c hc
    have := (toDigits_digit n).2 c hc
    simp only [ne_eq, decide_eq_true_eq]
    rintro rfl
    exact absurd this (by decide)
  have hd : ∀ n, ∀ x ∈ Nat.toDigits 10 n, Digit x := by
    intro n x hx
    have := (toDigits_digit n).2 x hx
    simpa [isDigitChar, Digit] using this
  unfold intText
  rw [toString_int]
  split
  · rename_i h0
    refine ⟨Nat.toDigits 10 i.toNat, (toDigits_digit _).1, hd _, .inl ⟨nounder _, ?_⟩⟩
    rw [digitsVal_toDigits]; omega
  · rename_i h0
    refine ⟨Nat.toDigits 10 i.natAbs, (toDigits_digit _).1, hd _, .inr ⟨?_, ?_⟩⟩
    · rw [List.filter_cons_of_pos (by decide), nounder]
    · rw [digitsVal_toDigits]; omega

theorem int_ok {i : Int} (h : -(2^63) ≤ i ∧ i < 2^63) : POk lib cx (.operand false 1) (.node (.int i) []) := by
  have hf : Facts (intText i) [⟨.Number, intText i⟩] ((.chr '.', .fail []) :: closedTable 1) := form_facts [⟨_, _, _, int_facts (intText_text i)⟩] int_form
  refine ⟨[⟨.Number, intText i⟩], facts_tail hf, ?_, fun hh => absurd rfl (hh i), by simp⟩
  intro st
  refine .tok ?_
  have := buildNumber_int lib (intLiteral_text i)
  rw [if_pos h] at this
  simp [buildStep, this, PState.push, regroup, regroupAll, SynOp.addsGroup]

/-! ### operators -/

theorem infix_plain {op : SynOp} {o : Bool} {a b : Syn} {t : Txt} {r : Rule} {k : Nat}
    (hx : (k, t, [], [SItem.tok r []]) ∈ infixForms) (hk : 1 ≤ k) (hg : op.addsGroup = false)
    (ht : synText lib (.node op [a, b]) = synText lib a ++ t ++ synText lib b)
    (hr : ∀ (a' b' : Syn) (st : List StackItem), buildStep lib cx { stack := .expr b' :: .expr a' :: st } ⟨r, []⟩ = .ok { stack := .expr (.node op [a', b']) :: st })
    (ha : POk lib cx (.operand false k) a) (hb : POk lib cx (.operand o (k - 1)) b) : POk lib cx (.operand o k) (.node op [a, b]) := by
  obtain ⟨Ta, haf, hap, -⟩ := ha
  obtain ⟨Tb, hbf, hbp, -⟩ := hb
  refine operand_ok (T := Ta ++ (Tb ++ [⟨r, []⟩])) ?_ ?_ (fun _ => hk)
  · rw [ht]
    cases o
    · exact form_facts [⟨_, _, _, haf⟩, ⟨_, _, _, hbf⟩] (all_mem infix_closed hx) (ht := by rw [List.cons_append, List.nil_append, List.cons_append]; exact noFin_chars _ _)
        (et := by simp [piecesText, SEnv.text, text_chars]; txt_eq)
    · exact form_facts [⟨_, _, _, haf⟩, ⟨_, _, _, hbf⟩] (all_mem infix_open hx) (ht := by rw [List.cons_append, List.nil_append, List.cons_append]; exact noFin_chars _ _)
        (et := by simp [piecesText, SEnv.text, text_chars]; txt_eq)
  · intro st
    rw [regroup_plain hg]
    exact (hap _).append ((hbp _).append (.tok (hr _ _ _)))

theorem infix_op {op : SynOp} {o : Bool} {a b : Syn} {t c : Txt} {q r : Rule} {k : Nat}
    (hx : (k, t, [SItem.tok q (symChars c)], [SItem.tok r []]) ∈ infixForms) (hk : 1 ≤ k) (hg : op.addsGroup = false)
    (ht : synText lib (.node op [a, b]) = synText lib a ++ t ++ synText lib b)
    (hq : ∀ st : List StackItem, buildStep lib cx { stack := st } ⟨q, c⟩ = .ok { stack := .op c :: st })
    (hr : ∀ (a' b' : Syn) (st : List StackItem), buildStep lib cx { stack := .expr b' :: .op c :: .expr a' :: st } ⟨r, []⟩ = .ok { stack := .expr (.node op [a', b']) :: st })
    (ha : POk lib cx (.operand false k) a) (hb : POk lib cx (.operand o (k - 1)) b) : POk lib cx (.operand o k) (.node op [a, b]) := by
  obtain ⟨Ta, haf, hap, -⟩ := ha
  obtain ⟨Tb, hbf, hbp, -⟩ := hb
  have hc : ∀ v : SEnv, v.text (symChars c) = c := by
    intro v
    have := text_chars v c []
    simpa [SEnv.text] using this
  have hn : noFin (symChars c) = true := by
    have := noFin_chars c []
    simpa [noFin] using this
  refine operand_ok (T := Ta ++ (⟨q, c⟩ :: (Tb ++ [⟨r, []⟩]))) ?_ ?_ (fun _ => hk)
  · rw [ht]
    cases o
    · exact form_facts [⟨_, _, _, haf⟩, ⟨_, _, _, hbf⟩] (all_mem infix_closed hx) (ht := by rw [List.cons_append, List.nil_append, List.cons_append]; exact noFin_chars _ _)
        (hi := by simp [itemsNoHole, hn, noFin, contHole]) (et := by simp [piecesText, SEnv.text, text_chars]; txt_eq)
        (eT := by simp [piecesToks, SEnv.items, SEnv.item, pieceEnv, pieceToks, contHole, hc]; rfl)
    · exact form_facts [⟨_, _, _, haf⟩, ⟨_, _, _, hbf⟩] (all_mem infix_open hx) (ht := by rw [List.cons_append, List.nil_append, List.cons_append]; exact noFin_chars _ _)
        (hi := by simp [itemsNoHole, hn, noFin, contHole]) (et := by simp [piecesText, SEnv.text, text_chars]; txt_eq)
        (eT := by simp [piecesToks, SEnv.items, SEnv.item, pieceEnv, pieceToks, contHole, hc]; rfl)
  · intro st
    rw [regroup_plain hg]
    exact (hap _).append (.cons (hq _) ((hbp _).append (.tok (hr _ _ _))))

theorem infix_ok {op : SynOp} {o : Bool} {k l r : Nat} {a b : Syn} (h : Infix op k l r) (hc : ∀ c, op = .cmp c → c ∈ cmpOps)
    (ha : POk lib cx (.operand false l) a) (hb : POk lib cx (.operand o r) b) : POk lib cx (.operand o k) (.node op [a, b]) := by
  cases h with
  | mul => exact infix_plain (k := 2) (t := " * ".toList) (r := .Multiplication) (List.mem_of_getElem? (i := 0) rfl) (by decide) rfl rfl (fun _ _ _ => rfl) ha hb
  | div => exact infix_plain (k := 2) (t := " / ".toList) (r := .Division) (List.mem_of_getElem? (i := 1) rfl) (by decide) rfl rfl (fun _ _ _ => rfl) ha hb
  | mod => exact infix_plain (k := 2) (t := " % ".toList) (r := .Modulo) (List.mem_of_getElem? (i := 2) rfl) (by decide) rfl rfl (fun _ _ _ => rfl) ha hb
  | add => exact infix_plain (k := 3) (t := " + ".toList) (r := .Addition) (List.mem_of_getElem? (i := 3) rfl) (by decide) rfl rfl (fun _ _ _ => rfl) ha hb
  | sub => exact infix_plain (k := 3) (t := " - ".toList) (r := .Subtraction) (List.mem_of_getElem? (i := 4) rfl) (by decide) rfl rfl (fun _ _ _ => rfl) ha hb
  | logOr => exact infix_plain (k := 5) (t := " -or ".toList) (r := .LogOr) (List.mem_of_getElem? (i := 5) rfl) (by decide) rfl rfl (fun _ _ _ => rfl) ha hb
  | logAnd => exact infix_plain (k := 5) (t := " -and ".toList) (r := .LogAnd) (List.mem_of_getElem? (i := 6) rfl) (by decide) rfl rfl (fun _ _ _ => rfl) ha hb
  | concat => exact infix_plain (k := 6) (t := " ".toList) (r := .Concatenation) (List.mem_of_getElem? (i := 7) rfl) (by decide) rfl rfl (fun _ _ _ => rfl) ha hb
  | or => exact infix_op (k := 8) (t := " || ".toList) (q := .OrOp) (r := .Or) (c := "||".toList) (List.mem_of_getElem? (i := 8) rfl) (by decide) rfl rfl (fun _ => rfl) (fun _ _ _ => rfl) ha hb
  | validOr => exact infix_op (k := 8) (t := " // ".toList) (q := .OrOp) (r := .Or) (c := "//".toList) (List.mem_of_getElem? (i := 9) rfl) (by decide) rfl rfl (fun _ => rfl) (fun _ _ _ => rfl) ha hb
  | cmp c =>
    have := hc c rfl
    simp only [cmpOps, List.mem_cons, List.not_mem_nil, or_false] at this
    have ht : ∀ c : Txt, synText lib (.node (.cmp c) [a, b]) = synText lib a ++ ([' '] ++ c ++ [' ']) ++ synText lib b := by
      intro c
      have : synText lib (.node (.cmp c) [a, b]) = synText lib a ++ [' '] ++ c ++ [' '] ++ synText lib b := rfl
      rw [this]; simp
    rcases this with rfl | rfl | rfl | rfl | rfl | rfl
    · exact infix_op (k := 4) (t := " == ".toList) (q := .CompareOp) (r := .Comparison) (c := "==".toList) (List.mem_of_getElem? (i := 10) rfl) (by decide) rfl (ht _) (fun _ => rfl) (fun _ _ _ => rfl) ha hb
    · exact infix_op (k := 4) (t := " != ".toList) (q := .CompareOp) (r := .Comparison) (c := "!=".toList) (List.mem_of_getElem? (i := 11) rfl) (by decide) rfl (ht _) (fun _ => rfl) (fun _ _ _ => rfl) ha hb
    · exact infix_op (k := 4) (t := " <= ".toList) (q := .CompareOp) (r := .Comparison) (c := "<=".toList) (List.mem_of_getElem? (i := 12) rfl) (by decide) rfl (ht _) (fun _ => rfl) (fun _ _ _ => rfl) ha hb
    · exact infix_op (k := 4) (t := " >= ".toList) (q := .CompareOp) (r := .Comparison) (c := ">=".toList) (List.mem_of_getElem? (i := 13) rfl) (by decide) rfl (ht _) (fun _ => rfl) (fun _ _ _ => rfl) ha hb
    · exact infix_op (k := 4) (t := " < ".toList) (q := .CompareOp) (r := .Comparison) (c := "<".toList) (List.mem_of_getElem? (i := 14) rfl) (by decide) rfl (ht _) (fun _ => rfl) (fun _ _ _ => rfl) ha hb
    · exact infix_op (k := 4) (t := " > ".toList) (q := .CompareOp) (r := .Comparison) (c := ">".toList) (List.mem_of_getElem? (i := 15) rfl) (by decide) rfl (ht _) (fun _ => rfl) (fun _ _ _ => rfl) ha hb

/-! ### merges -/

theorem mergeText_plain (p : List Txt) (n : Txt) : synText lib (.node (.merge p false false false false n) []) =
    "merge".toList ++ (if n = [] then [] else " on ".toList ++ n) := by
  have : synText lib (.node (.merge p false false false false n) []) = mergeText p false false false n := rfl
  rw [this]
  cases n <;> simp [mergeText]

theorem mergeText_opts (p : List Txt) (b : Bool) (n : Txt) : mergeText p true b true n =
    "merge".toList ++ ((if b then " replace".toList else []) ++ (if n.isEmpty then [] else " on ".toList ++ n)) ++ " ".toList ++ joinTxt ['.'] p := by
  unfold mergeText
  simp only [Bool.not_true, Bool.and_false, Bool.false_and, Bool.false_eq_true, if_false, if_true]

theorem mergeText_ref (k : Txt) (P : List Txt) (b : Bool) (n : Txt) : synText lib (.node (.merge (k :: P) true b true false n) []) =
    "merge".toList ++ ((if b then " replace".toList else []) ++ (if n.isEmpty then [] else " on ".toList ++ n)) ++ " ".toList ++ (k ++ pathTail P) := by
  have : synText lib (.node (.merge (k :: P) true b true false n) []) = mergeText (k :: P) true b true n := rfl
  rw [this, mergeText_opts, join_path]

theorem merge_facts {e : Syn} {T : List (Tok Rule)} (h : Facts (synText lib e) T mergeTable) (hp : Pushes lib cx T (regroup e)) : POk lib cx (.operand false 7) e :=
  operand_ok (facts_tail h) hp (by simp)

theorem merge_ok {n : Txt} (hp : cx.path = cx.stubPath) (hn : n = [] ∨ NameText n) :
    POk lib cx (.operand false 7) (.node (.merge cx.stubPath false false false false n) []) := by
  by_cases h : n = []
  · subst h
    refine merge_facts (T := [⟨.SimpleMerge, []⟩, ⟨.Merge, []⟩]) ?_ ?_
    · rw [mergeText_plain]
      exact form_facts [] merge_form (et := by simp; txt_eq)
    · intro st
      simp [Runs, buildTokens, buildStep, simpleMerge, PState.push, Built.bind, regroup, regroupAll, SynOp.addsGroup, hp]
  · have hnf := name_facts (hn.resolve_left h)
    refine merge_facts (T := [⟨.Name, n⟩, ⟨.On, []⟩, ⟨.SimpleMerge, []⟩, ⟨.Merge, []⟩]) ?_ ?_
    · rw [mergeText_plain, if_neg h]
      exact form_facts [⟨_, _, _, hnf⟩] mergeOn_form (et := by simp; txt_eq)
    · intro st
      simp [Runs, buildTokens, buildStep, simpleMerge, PState.push, Built.bind, regroup, regroupAll, SynOp.addsGroup, hp]

theorem mergeRef_ok {k : Txt} {P : List Txt} {replace : Bool} {n : Txt} (hk : FirstKey k) (hP : ∀ c ∈ P, CompText c) (hno : k :: P ≠ ["none".toList])
    (ho : (n = [] ∧ (replace = true ∨ MergeKey k)) ∨ (replace = false ∧ NameText n)) :
    POk lib cx (.operand false 7) (.node (.merge (k :: P) true replace true false n) []) := by
  have hb := build_rel (.inl hk.key) hP
  have hrm : ∀ s : PState, refMerge s (k :: P) = .node (.merge (k :: P) true s.replace true false s.key) [] := by
    intro s
    unfold refMerge
    rw [if_neg hno]
    simp
  rcases ho with ⟨rfl, h⟩ | ⟨rfl, hn⟩
  · cases replace with
    | true =>
      refine merge_facts (T := [⟨.Replace, []⟩, ⟨.Reference, k ++ pathTail P⟩, ⟨.RefMerge, []⟩, ⟨.Merge, []⟩]) ?_ ?_
      · rw [mergeText_ref]
        exact form_facts [⟨_, _, _, ref_facts hk hP⟩] mergeReplace_form (et := by simp; txt_eq)
      · intro st
        simp [Runs, buildTokens, buildStep, hb, hrm, PState.push, Built.bind, regroup, regroupAll, SynOp.addsGroup]
    | false =>
      have hm := h.resolve_left (by simp)
      refine merge_facts (T := [⟨.Reference, k ++ pathTail P⟩, ⟨.RefMerge, []⟩, ⟨.Merge, []⟩]) ?_ ?_
      · rw [mergeText_ref]
        exact form_facts [⟨_, _, _, mergeRef_facts hk hm hP⟩] mergeRef_form (et := by simp; txt_eq)
      · intro st
        simp [Runs, buildTokens, buildStep, hb, hrm, PState.push, Built.bind, regroup, regroupAll, SynOp.addsGroup]
  · have hne : n ≠ [] := hn.1
    refine merge_facts (T := [⟨.Name, n⟩, ⟨.On, []⟩, ⟨.Reference, k ++ pathTail P⟩, ⟨.RefMerge, []⟩, ⟨.Merge, []⟩]) ?_ ?_
    · rw [mergeText_ref]
      exact form_facts [⟨_, _, _, name_facts hn⟩, ⟨_, _, _, ref_facts hk hP⟩] mergeOnRef_form (et := by simp [hne]; txt_eq)
    · intro st
      simp [Runs, buildTokens, buildStep, hb, hrm, PState.push, Built.bind, regroup, regroupAll, SynOp.addsGroup]

/-! ### all expressions -/

/-- where named arguments stand -/
def namedKind : PKind → Bool
  | .named => true
  | _ => false

theorem printable_named {kind : PKind} {e : Syn} (h : Printable lib cx kind e) : isNamed e = namedKind kind := by
  induction h with
  | up _ _ ih => exact ih
  | expr _ ih => exact ih
  | elem _ ih => exact ih
  | lambda _ ih => exact ih
  | mapping hop => cases hop <;> rfl
  | «infix» h => cases h <;> rfl
  | _ => rfl

theorem print_ok {kind : PKind} {e : Syn} (h : Printable lib cx kind e) : POk lib cx kind e := by
  induction h with
  | up _ hk ih => exact up_ok ih hk
  | expr _ ih => exact expr_ok ih
  | elem _ ih => exact elem_ok ih
  | expand _ ih => exact expand_ok ih
  | named hn _ ih => exact named_ok hn ih
  | ref hk hP => exact ref_ok hk hP
  | absRef hk hP => exact absRef_ok hk hP
  | group _ ih => exact group_ok ih
  | list _ ih => exact list_ok ih
  | map _ _ hk hv => exact map_ok hk hv
  | range _ _ hd ha hb => exact range_ok ha hb hd
  | dyn _ _ hne hi ha hl => exact dyn_ok ha hl hne hi
  | qual _ hne hP ha => exact qual_ok ha hne hP
  | call _ hn hp ihf ihn ihp => exact call_ok ihf ihn ihp (fun a ha => printable_named (hn a ha)) (fun a ha => printable_named (hp a ha))
  | mapping hop _ _ ha hl => exact mapping_ok hop ha hl
  | sum _ _ _ ha hi hl => exact sum_ok ha hi hl
  | nil => exact nil_ok
  | undef => exact undef_ok
  | bool b => exact bool_ok b
  | int h => exact int_ok h
  | str h => exact str_ok h
  | auto => exact auto_ok
  | not _ ih => exact not_ok ih
  | subst _ ih => exact subst_ok ih
  | lam hn hdn _ _ hv hd hb => exact lam_ok hn hdn hd hb hv
  | lambda _ ih => exact lambda_ok ih
  | lambdaRef _ hl ih => exact lambdaRef_ok ih hl
  | «infix» h hc _ _ ha hb => exact infix_ok h hc ha hb
  | cond _ _ _ hc ht hf => exact cond_ok hc ht hf
  | scope _ _ _ hk hv he => exact scope_ok hk hv he
  | merge hp hn => exact merge_ok hp hn
  | mergeRef hk hP hno ho => exact mergeRef_ok hk hP hno ho

/-! ### parsing the text -/

def rootTable : Table := [(.nt .Dynaml, .cont (.any :: needBlank) .eps)]
theorem root_form : checkTable (tablesOf [exprTable]) [.hole 0] [.hole 0] rootTable = true := by decide +kernel
theorem prefer_form : checkTable (tablesOf [exprTable]) (symChars "prefer ".toList ++ [.hole 0]) [.hole 0, .tok .Prefer []] rootTable = true := by decide +kernel

theorem ends_fail : ∀ n ∈ (.any :: needBlank : List (Peg Rule)), Parses dynamlRules n [] none := by
  have h : (.any :: needBlank : List (Peg Rule)).all (fun n => (sexec noFacts 40 n []).isFail) = true := by decide +kernel
  intro n hn
  have h1 := all_mem h hn
  have h2 := sexec_sound noFacts_hold 40 n []
  cases hx : sexec noFacts 40 n [] with
  | fail => rw [hx] at h2; exact h2
  | ok _ _ _ => rw [hx] at h1; cases h1
  | stuck => rw [hx] at h1; cases h1

theorem root_parse {t : Txt} {T : List (Tok Rule)} {e : Syn} (h : Facts t T rootTable) (hp : Pushes lib cx T e) : ParseTo lib cx t (.ok e) := by
  obtain ⟨u, h1, h2⟩ := facts_head h [] ends_fail [] [] [] (.eps _)
  rw [List.append_nil] at h1
  refine .inr ⟨u, _, _, h1, ?_⟩
  unfold buildExpression
  rw [← buildTokens_ess, h2]
  have : buildTokens lib cx {} (T ++ ess []) = .ok { stack := [.expr e] } := by
    have h3 := hp []
    unfold Runs at h3
    simpa [ess] using h3
  rw [this]
  rfl

/-- C63: the text of a printable expression is parsed to this expression with parentheses around the operands of `!` and `*` and of paths. -/
theorem print_parse {e : Syn} (h : Printable lib cx .expr e) : ParseTo lib cx (synText lib e) (.ok (regroup e)) := by
  obtain ⟨T, hf, -, hp, -⟩ := print_ok h
  exact root_parse (form_facts [⟨_, _, _, hf⟩] root_form) hp

/-- C63: the same for preferred expressions. -/
theorem print_parse_prefer {e : Syn} (h : Printable lib cx .expr e) :
    ParseTo lib cx (synText lib (.node .prefer [e])) (.ok (regroup (.node .prefer [e]))) := by
  obtain ⟨T, hf, -, hp, -⟩ := print_ok h
  refine root_parse (T := T ++ [⟨.Prefer, []⟩]) (form_facts [⟨_, _, _, hf⟩] prefer_form (et := by txt_eq)) ?_
  intro st
  exact (hp _).append (.tok rfl)

end

theorem ungroupAll_map (l : List Syn) : ungroupAll l = l.map ungroup := by
  induction l with
  | nil => rfl
  | cons a l ih => simp [ungroupAll, ih]

/-- C63: the additional parentheses are the only difference. -/
theorem ungroup_regroup (e : Syn) : ungroup (regroup e) = ungroup e := by
  refine Syn.rec (motive_1 := fun e => ungroup (regroup e) = ungroup e) (motive_2 := fun l => (l.map (fun e => ungroup (regroup e))) = l.map ungroup) ?_ ?_ ?_ e
  · intro op args ih
    rw [regroup, ungroup, ungroup]
    congr 1
    rw [ungroupAll_map, ungroupAll_map, regroupAll_map]
    split
    · rw [List.map_map, List.map_map]
      refine Eq.trans ?_ ih
      refine List.map_congr_left ?_
      intro a _
      simp [ungroup, ungroupAll, dropGroup]
    · rw [List.map_map]; exact ih
  · rfl
  · intro a l h1 h2
    rw [List.map_cons, List.map_cons, h1, h2]

/-- C63: the text of a printable expression is parsed to the same expression up to parentheses. -/
theorem print_roundtrip {lib : PLib} {cx : PCtx} {e : Syn} (h : Printable lib cx .expr e) :
    ∃ e', ParseTo lib cx (synText lib e) (.ok e') ∧ ungroup e' = ungroup e :=
  ⟨regroup e, print_parse h, ungroup_regroup e⟩

end Spiff
