import Verif.Props.JsonTokens
import Verif.Props.YamlMarshal
/-
C87: the tokens of a JSON text are parsed as its events.
-/
namespace Spiff
open Spec

mutual
/-- the YAML node read for a JSON value -/
def JTree.tree : JTree → YTree
  | .word t => .scalar "" { value := t }
  | .text s => .scalar "" { value := s, implicit := false }
  | .seq l => .seq "" (itemTrees l)
  | .map m => .map "" (fieldTrees m)
termination_by structural t => t
def itemTrees : List JTree → List YTree
  | [] => []
  | t :: r => t.tree :: itemTrees r
termination_by structural l => l
def fieldTrees : List (YText × JTree) → List (YTree × YTree)
  | [] => []
  | (k, t) :: r => (.scalar "" { value := k, implicit := false }, t.tree) :: fieldTrees r
termination_by structural l => l
end

/-- a token beginning a value -/
def Begins (t : YTok) : Prop := (∃ st v, t = .scalar st v) ∨ t = .flowSeqStart ∨ t = .flowMapStart

theorem toks_first (t : JTree) : ∃ x r, t.toks = x :: r ∧ Begins x := by
  cases t with
  | word t => exact ⟨_, _, rfl, .inl ⟨_, _, rfl⟩⟩
  | text t => exact ⟨_, _, rfl, .inl ⟨_, _, rfl⟩⟩
  | seq l => exact ⟨_, _, rfl, .inr (.inl rfl)⟩
  | map m => exact ⟨_, _, rfl, .inr (.inr rfl)⟩

/-- a value is parsed -/
def FlowParse (t : JTree) : Prop := ∀ (m0 m : ParseMode) (modes : List ParseMode) (rest : List YTok),
  ∃ e es p, t.tree.events = e :: es ∧ parseFlowNode ⟨m0, m :: modes, t.toks ++ rest⟩ = some (e, p) ∧ e ≠ .streamEnd ∧ ParseRun p es ⟨m, modes, rest⟩

theorem flow_parse (t : JTree) : FlowParse t := by
  refine JTree.rec
    (motive_1 := fun t => FlowParse t)
    (motive_2 := fun l => ∀ m modes rest,
      ParseRun ⟨.flowSeqEntry, m :: modes, itemToks false l ++ .flowSeqEnd :: rest⟩ (eventsL (itemTrees l) ++ [.seqEnd]) ⟨m, modes, rest⟩ ∧
      ParseRun ⟨.flowSeqFirst, m :: modes, .flowSeqStart :: (itemToks true l ++ .flowSeqEnd :: rest)⟩ (eventsL (itemTrees l) ++ [.seqEnd]) ⟨m, modes, rest⟩)
    (motive_3 := fun l => ∀ m modes rest,
      ParseRun ⟨.flowMapKey, m :: modes, fieldToks false l ++ .flowMapEnd :: rest⟩ (eventsM (fieldTrees l) ++ [.mapEnd]) ⟨m, modes, rest⟩ ∧
      ParseRun ⟨.flowMapFirst, m :: modes, .flowMapStart :: (fieldToks true l ++ .flowMapEnd :: rest)⟩ (eventsM (fieldTrees l) ++ [.mapEnd]) ⟨m, modes, rest⟩)
    (motive_4 := fun e => FlowParse e.2)
    ?_ ?_ ?_ ?_ ?_ ?_ ?_ ?_ ?_ t
  · intro w m0 m modes rest
    exact ⟨_, _, _, rfl, rfl, by simp, ParseRun.nil _⟩
  · intro w m0 m modes rest
    exact ⟨_, _, _, rfl, rfl, by simp, ParseRun.nil _⟩
  · intro l ih m0 m modes rest
    refine ⟨_, _, _, rfl, rfl, by simp, ?_⟩
    have := (ih m modes rest).2
    simpa [JTree.toks, JTree.tree] using this
  · intro l ih m0 m modes rest
    refine ⟨_, _, _, rfl, rfl, by simp, ?_⟩
    have := (ih m modes rest).2
    simpa [JTree.toks, JTree.tree] using this
  · intro m modes rest
    exact ⟨ParseRun.step rfl (by simp) (ParseRun.nil _), ParseRun.step rfl (by simp) (ParseRun.nil _)⟩
  · intro t r iht ihr m modes rest
    obtain ⟨x, u, hx, hb⟩ := toks_first t
    have item : ∀ m0, ∃ e es p, t.tree.events = e :: es ∧ e ≠ .streamEnd ∧
        parseFlowItem ⟨m0, m :: modes, t.toks ++ (itemToks false r ++ .flowSeqEnd :: rest)⟩ = some (e, p) ∧
        ParseRun p es ⟨.flowSeqEntry, m :: modes, itemToks false r ++ .flowSeqEnd :: rest⟩ := by
      intro m0
      obtain ⟨e, es, p, h1, h2, h3, h4⟩ := iht m0 .flowSeqEntry (m :: modes) (itemToks false r ++ .flowSeqEnd :: rest)
      refine ⟨e, es, p, h1, h3, ?_, h4⟩
      rw [← h2, hx, List.cons_append]
      rcases hb with ⟨st, v, rfl⟩ | rfl | rfl <;> rfl
    refine ⟨?_, ?_⟩
    · obtain ⟨e, es, p, h1, h2, h3, h4⟩ := item .flowSeqEntry
      simp only [itemTrees, eventsL, h1, List.cons_append, List.append_assoc]
      refine ParseRun.step ?_ h2 (h4.append (ihr m modes rest).1)
      rw [← h3]
      simp [itemToks, parseStep, parseFlowSeq]
    · obtain ⟨e, es, p, h1, h2, h3, h4⟩ := item .flowSeqFirst
      simp only [itemTrees, eventsL, h1, List.cons_append, List.append_assoc]
      refine ParseRun.step ?_ h2 (h4.append (ihr m modes rest).1)
      rw [← h3]
      simp only [itemToks, parseStep, parseFlowSeq, if_true, List.nil_append, List.append_assoc, List.drop_succ_cons, List.drop_zero]
      rw [hx, List.cons_append]
      rcases hb with ⟨st, v, rfl⟩ | rfl | rfl <;> rfl
  · intro m modes rest
    exact ⟨ParseRun.step rfl (by simp) (ParseRun.nil _), ParseRun.step rfl (by simp) (ParseRun.nil _)⟩
  · rintro ⟨k, t⟩ r iht ihr m modes rest
    obtain ⟨x, u, hx, hb⟩ := toks_first t
    obtain ⟨e, es, p, h1, h2, h3, h4⟩ := iht .flowMapValue .flowMapKey (m :: modes) (fieldToks false r ++ .flowMapEnd :: rest)
    have hval : parseStep ⟨.flowMapValue, m :: modes, .value :: (t.toks ++ (fieldToks false r ++ .flowMapEnd :: rest))⟩ = some (e, p) := by
      rw [← h2]
      simp only
      rw [hx, List.cons_append]
      rcases hb with ⟨st, v, rfl⟩ | rfl | rfl <;> rfl
    have hrun : ParseRun ⟨.flowMapValue, m :: modes, .value :: (t.toks ++ (fieldToks false r ++ .flowMapEnd :: rest))⟩
        (t.tree.events ++ (eventsM (fieldTrees r) ++ [.mapEnd])) ⟨m, modes, rest⟩ := by
      rw [h1]
      exact ParseRun.step hval h3 (h4.append (ihr m modes rest).1)
    simp only [fieldTrees, eventsM, YTree.events, List.cons_append, List.append_assoc, List.nil_append]
    refine ⟨ParseRun.step ?_ (by simp) hrun, ParseRun.step ?_ (by simp) hrun⟩
    · simp [fieldToks, parseStep, parseFlowMap, parseFlowField, parseFlowNode, popParse]
    · simp [fieldToks, parseStep, parseFlowMap, parseFlowField, parseFlowNode, popParse]
  · intro k t ih; exact ih

/-- there are at most as many events as tokens -/
theorem json_length (t : JTree) : t.tree.events.length ≤ t.toks.length := by
  refine JTree.rec
    (motive_1 := fun t => t.tree.events.length ≤ t.toks.length)
    (motive_2 := fun l => ∀ b, (eventsL (itemTrees l)).length ≤ (itemToks b l).length)
    (motive_3 := fun l => ∀ b, (eventsM (fieldTrees l)).length ≤ (fieldToks b l).length)
    (motive_4 := fun e => e.2.tree.events.length ≤ e.2.toks.length)
    ?_ ?_ ?_ ?_ ?_ ?_ ?_ ?_ ?_ t
  · intro w; simp [JTree.tree, YTree.events, JTree.toks]
  · intro w; simp [JTree.tree, YTree.events, JTree.toks]
  · intro l ih; have := ih true; simp [JTree.tree, YTree.events, JTree.toks]; omega
  · intro l ih; have := ih true; simp [JTree.tree, YTree.events, JTree.toks]; omega
  · intro b; simp [itemTrees, eventsL]
  · intro t r h1 h2 b; have := h2 false; simp [itemTrees, eventsL, itemToks]; omega
  · intro b; simp [fieldTrees, eventsM]
  · rintro ⟨k, t⟩ r h1 h2 b; have := h2 false; simp only at h1; simp [fieldTrees, eventsM, fieldToks, YTree.events]; omega
  · intro k t ih; exact ih

/-- a document -/
theorem json_parse (t : JTree) : parseTokens (.streamStart :: (t.toks ++ [.streamEnd])) =
    some (.streamStart :: docEvents [t.tree]) := by
  obtain ⟨x, u, hx, hb⟩ := toks_first t
  obtain ⟨e, b, p, g1, g2, g3, g4⟩ := flow_parse t .blockNode .documentEnd [] [.streamEnd]
  have hlen := json_length t
  have hnode : parseNode false ⟨.blockNode, [.documentEnd], t.toks ++ [.streamEnd]⟩ = some (e, p) := by
    rw [← g2, hx, List.cons_append]
    rcases hb with ⟨st, v, rfl⟩ | rfl | rfl <;> rfl
  have : ParseRun ⟨.streamStart, [], .streamStart :: (t.toks ++ [.streamEnd])⟩ (.streamStart :: .docStart :: (t.tree.events ++ [.docEnd]))
      ⟨.documentStart, [], [.streamEnd]⟩ := by
    refine ParseRun.step (q := ⟨.implicitDocumentStart, [], t.toks ++ [.streamEnd]⟩) rfl (by simp)
      (ParseRun.step (q := ⟨.blockNode, [.documentEnd], t.toks ++ [.streamEnd]⟩) ?_ (by simp) ?_)
    · rw [hx, List.cons_append]
      rcases hb with ⟨st, v, rfl⟩ | rfl | rfl <;> rfl
    · rw [g1]
      exact ParseRun.step hnode g3 (g4.append (ParseRun.step rfl (by simp) (ParseRun.nil _)))
  unfold parseTokens
  rw [this.finish (by simp only [List.length_cons, List.length_append, List.length_nil]; omega)]
  simp [docEvents]

end Spiff
