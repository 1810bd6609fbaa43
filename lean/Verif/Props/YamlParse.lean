import Verif.Spec.YamlLayout
import Verif.Model.YamlLayout
/-
C86: the tokens of a document are parsed as its events.
-/
namespace Spiff
open Spec

/-! ### the tokens of events -/

mutual
/-- tokens of a node; `flat`: the node may be a list without own indentation -/
inductive NodeT : Bool → List WEvent → List YTok → Prop
  | scalar (flat : Bool) (s : YText) (st : YStyle) : NodeT flat [.scalar s st] [.scalar st s]
  | emptySeq (flat : Bool) : NodeT flat [.seqStart, .seqEnd] [.flowSeqStart, .flowSeqEnd]
  | emptyMap (flat : Bool) : NodeT flat [.mapStart, .mapEnd] [.flowMapStart, .flowMapEnd]
  | seq (flat : Bool) {es ts} : ItemsT es ts → ts ≠ [] → NodeT flat (.seqStart :: (es ++ [.seqEnd])) (.blockSeqStart :: (ts ++ [.blockEnd]))
  | flat {es ts} : ItemsT es ts → ts ≠ [] → NodeT true (.seqStart :: (es ++ [.seqEnd])) ts
  | map (flat : Bool) {es ts} : PairsT es ts → NodeT flat (.mapStart :: (es ++ [.mapEnd])) (.blockMapStart :: (ts ++ [.blockEnd]))
/-- tokens of elements -/
inductive ItemsT : List WEvent → List YTok → Prop
  | nil : ItemsT [] []
  | cons {a b ta tb} : NodeT false a ta → ItemsT b tb → ItemsT (a ++ b) (.blockEntry :: (ta ++ tb))
/-- tokens of entries -/
inductive PairsT : List WEvent → List YTok → Prop
  | nil : PairsT [] []
  | cons (k : YText) (st : YStyle) {a b ta tb} : NodeT true a ta → PairsT b tb →
      PairsT (.scalar k st :: (a ++ b)) (.key :: .scalar st k :: .value :: (ta ++ tb))
end

/-- the events `es` are delivered on the way from `p` to `p'` -/
def ParseRun (p : Parser) (es : List YEvent) (p' : Parser) : Prop :=
  ∀ n, parseAll (n + es.length) p = (parseAll n p').map (es ++ ·)

theorem ParseRun.nil (p : Parser) : ParseRun p [] p := by
  intro n
  simp

theorem ParseRun.append {p q r : Parser} {a b : List YEvent} (h : ParseRun p a q) (h' : ParseRun q b r) : ParseRun p (a ++ b) r := by
  intro n
  rw [List.length_append, ← Nat.add_assoc, Nat.add_right_comm, h, h']
  cases parseAll n r <;> simp

theorem ParseRun.step {p q r : Parser} {e : YEvent} {b : List YEvent} (h : parseStep p = some (e, q)) (he : e ≠ .streamEnd) (h' : ParseRun q b r) :
    ParseRun p (e :: b) r := by
  intro n
  rw [List.length_cons, ← Nat.add_assoc, parseAll, h, Option.bind_some]
  simp only [if_neg he]
  rw [h']
  cases parseAll n r <;> simp

theorem ParseRun.congr {p q r : Parser} {e : YEvent} {b : List YEvent} (h : parseStep p = parseStep q) (h' : ParseRun q (e :: b) r) :
    ParseRun p (e :: b) r := by
  intro n
  have := h' n
  rw [List.length_cons, ← Nat.add_assoc, parseAll] at this ⊢
  rw [h]
  exact this

/-- the next token is not an element of a list -/
def NoEntry (rest : List YTok) : Prop := ∃ t r, rest = t :: r ∧ t ≠ .blockEntry

/-- a node is read -/
def NodeRun (flat : Bool) (a : List WEvent) (ts : List YTok) : Prop :=
  ∀ (m0 m : ParseMode) (modes : List ParseMode) (rest : List YTok), (flat = true → NoEntry rest) →
    ∃ e es p, a.map WEvent.read = e :: es ∧ parseNode flat ⟨m0, m :: modes, ts ++ rest⟩ = some (e, p) ∧ e ≠ .streamEnd ∧ ParseRun p es ⟨m, modes, rest⟩

theorem node_first {flat : Bool} {a : List WEvent} {ts : List YTok} (h : NodeT flat a ts) :
    ∃ t r, ts = t :: r ∧ endsNode t = false ∧ (flat = false → t ≠ .blockEntry) ∧ t ≠ .documentStart ∧ t ≠ .documentEnd ∧ t ≠ .streamEnd := by
  have items : ∀ {es ts}, ItemsT es ts → ts ≠ [] → ∃ r, ts = .blockEntry :: r := by
    intro es ts h hne
    cases h with
    | nil => exact absurd rfl hne
    | cons _ _ => exact ⟨_, rfl⟩
  cases h with
  | scalar => exact ⟨_, _, rfl, rfl, by simp, by simp, by simp, by simp⟩
  | emptySeq => exact ⟨_, _, rfl, rfl, by simp, by simp, by simp, by simp⟩
  | emptyMap => exact ⟨_, _, rfl, rfl, by simp, by simp, by simp, by simp⟩
  | seq => exact ⟨_, _, rfl, rfl, by simp, by simp, by simp, by simp⟩
  | flat h hne =>
    obtain ⟨r, rfl⟩ := items h hne
    exact ⟨_, _, rfl, rfl, by simp, by simp, by simp, by simp⟩
  | map => exact ⟨_, _, rfl, rfl, by simp, by simp, by simp, by simp⟩

theorem node_run {flat : Bool} {a : List WEvent} {ts : List YTok} (h : NodeT flat a ts) : NodeRun flat a ts := by
  refine NodeT.rec
    (motive_1 := fun flat a ts _ => NodeRun flat a ts)
    (motive_2 := fun es ts _ => (∀ m modes rest, ParseRun ⟨.blockSeqEntry, m :: modes, ts ++ .blockEnd :: rest⟩ (es.map WEvent.read ++ [.seqEnd]) ⟨m, modes, rest⟩) ∧
      (∀ m modes rest, NoEntry rest → ParseRun ⟨.indentlessEntry, m :: modes, ts ++ rest⟩ (es.map WEvent.read ++ [.seqEnd]) ⟨m, modes, rest⟩))
    (motive_3 := fun es ts _ => ∀ m modes rest, ParseRun ⟨.blockMapKey, m :: modes, ts ++ .blockEnd :: rest⟩ (es.map WEvent.read ++ [.mapEnd]) ⟨m, modes, rest⟩)
    ?_ ?_ ?_ ?_ ?_ ?_ ?_ ?_ ?_ ?_ h
  · intro flat s st m0 m modes rest _
    exact ⟨_, _, _, rfl, rfl, by simp [WEvent.read], ParseRun.nil _⟩
  · intro flat m0 m modes rest _
    refine ⟨_, _, _, rfl, rfl, by simp [WEvent.read], ParseRun.step (q := ⟨m, modes, rest⟩) ?_ (by simp [WEvent.read]) (ParseRun.nil _)⟩
    simp [parseStep, parseFlowSeq, popParse, WEvent.read]
  · intro flat m0 m modes rest _
    refine ⟨_, _, _, rfl, rfl, by simp [WEvent.read], ParseRun.step (q := ⟨m, modes, rest⟩) ?_ (by simp [WEvent.read]) (ParseRun.nil _)⟩
    simp [parseStep, parseFlowMap, popParse, WEvent.read]
  · intro flat es ts hi hne ih m0 m modes rest _
    have hrun := ih.1 m modes rest
    refine ⟨_, _, _, rfl, rfl, by simp [WEvent.read], ?_⟩
    rw [List.map_append, List.map_singleton, WEvent.read]
    simp only [List.cons_append, List.append_assoc, List.nil_append]
    cases hes : es.map WEvent.read ++ [YEvent.seqEnd] with
    | nil => simp at hes
    | cons e b =>
      rw [hes] at hrun
      exact ParseRun.congr rfl hrun
  · intro es ts hi hne ih m0 m modes rest hr
    have hrun := ih.2 m modes rest (hr rfl)
    obtain ⟨r, rfl⟩ : ∃ r, ts = .blockEntry :: r := by
      cases hi with
      | nil => exact absurd rfl hne
      | cons _ _ => exact ⟨_, rfl⟩
    refine ⟨_, _, _, rfl, rfl, by simp [WEvent.read], ?_⟩
    rw [List.map_append, List.map_singleton, WEvent.read]
    exact hrun
  · intro flat es ts hi ih m0 m modes rest _
    have hrun := ih m modes rest
    refine ⟨_, _, _, rfl, rfl, by simp [WEvent.read], ?_⟩
    rw [List.map_append, List.map_singleton, WEvent.read]
    simp only [List.cons_append, List.append_assoc, List.nil_append]
    cases hes : es.map WEvent.read ++ [YEvent.mapEnd] with
    | nil => simp at hes
    | cons e b =>
      rw [hes] at hrun
      exact ParseRun.congr rfl hrun
  · refine ⟨fun m modes rest => ?_, fun m modes rest hr => ?_⟩
    · exact ParseRun.step rfl (by simp) (ParseRun.nil _)
    · obtain ⟨t, r, rfl, ht⟩ := hr
      refine ParseRun.step ?_ (by simp) (ParseRun.nil _)
      simp only [List.nil_append, parseStep, parseIndentless]
      split
      · rename_i h; cases h
      · rename_i h; cases h; exact absurd rfl ht
      · rename_i h; cases h; exact absurd rfl ht
      · rfl
  · intro a b ta tb hn hi ihn ihi
    obtain ⟨t, r, rfl, ht, hte, _⟩ := node_first hn
    refine ⟨fun m modes rest => ?_, fun m modes rest hr => ?_⟩
    · obtain ⟨e, es, p, h1, h2, h3, h4⟩ := ihn .blockSeqEntry .blockSeqEntry (m :: modes) (tb ++ .blockEnd :: rest) (by simp)
      rw [List.map_append, h1, List.cons_append, List.cons_append, List.append_assoc]
      refine ParseRun.step ?_ h3 (h4.append (ihi.1 m modes rest))
      rw [← h2]
      simp only [parseStep, List.cons_append, List.append_assoc, parseSeqEntry]
      split
      · rename_i h; injection h with _ h; injection h with h _; exact absurd h (hte rfl)
      · rename_i h; injection h with _ h; injection h with h _; subst h; cases ht
      · rename_i h; injection h with _ h; injection h with h h'; subst h h'; rfl
      · rename_i h; cases h
      · rename_i h _; exact (h _ _ rfl).elim
    · obtain ⟨e, es, p, h1, h2, h3, h4⟩ := ihn .indentlessEntry .indentlessEntry (m :: modes) (tb ++ rest) (by simp)
      rw [List.map_append, h1, List.cons_append, List.cons_append, List.append_assoc]
      refine ParseRun.step ?_ h3 (h4.append (ihi.2 m modes rest hr))
      rw [← h2]
      simp only [parseStep, List.cons_append, List.append_assoc, parseIndentless]
      rw [if_neg (by simp [hte rfl, ht])]
  · intro m modes rest
    exact ParseRun.step rfl (by simp) (ParseRun.nil _)
  · intro k st a b ta tb hn hp ihn ihp m modes rest
    obtain ⟨t, r, rfl, ht, _⟩ := node_first hn
    have hno : NoEntry (tb ++ .blockEnd :: rest) := by
      cases hp with
      | nil => exact ⟨_, _, rfl, by simp⟩
      | cons => exact ⟨_, _, rfl, by simp⟩
    obtain ⟨e, es, p, h1, h2, h3, h4⟩ := ihn .blockMapValue .blockMapKey (m :: modes) (tb ++ .blockEnd :: rest) (fun _ => hno)
    rw [List.map_cons, List.map_append, h1]
    simp only [List.cons_append, List.append_assoc]
    refine ParseRun.step (q := ⟨.blockMapValue, m :: modes, .value :: (t :: (r ++ (tb ++ .blockEnd :: rest)))⟩) ?_ (by simp [WEvent.read])
      (ParseRun.step ?_ h3 (h4.append (ihp m modes rest)))
    · simp [parseStep, parseMapKey, parseNode, popParse, WEvent.read, endsNode]
    · rw [← h2]
      simp only [parseStep, parseMapValue, ht, List.cons_append, Bool.false_eq_true, if_false]

/-- there are at most twice as many events as tokens -/
theorem node_length {flat : Bool} {a : List WEvent} {ts : List YTok} (h : NodeT flat a ts) : a.length ≤ 2 * ts.length := by
  refine NodeT.rec
    (motive_1 := fun _ a ts _ => a.length ≤ 2 * ts.length)
    (motive_2 := fun es ts _ => es.length + 2 * (if ts = [] then 0 else 1) ≤ 2 * ts.length)
    (motive_3 := fun es ts _ => es.length ≤ 2 * ts.length)
    ?_ ?_ ?_ ?_ ?_ ?_ ?_ ?_ ?_ ?_ h
  · intros; simp
  · intros; simp
  · intros; simp
  · intro _ es ts _ _ ih; simp only [List.length_cons, List.length_append, List.length_nil]; omega
  · intro es ts _ hne ih; simp only [if_neg hne, List.length_cons, List.length_append, List.length_nil] at ih ⊢; omega
  · intro _ es ts _ ih; simp only [List.length_cons, List.length_append, List.length_nil]; omega
  · simp
  · intro a b ta tb _ _ h1 h2
    simp only [List.length_cons, List.length_append, reduceCtorEq, if_false] at h1 h2 ⊢
    omega
  · simp
  · intro k st a b ta tb _ _ h1 h2
    simp only [List.length_cons, List.length_append] at h1 h2 ⊢
    omega

theorem ParseRun.finish {p : Parser} {es : List YEvent} {ms : List ParseMode} {r : List YTok} (h : ParseRun p es ⟨.documentStart, ms, .streamEnd :: r⟩) {n : Nat}
    (hn : es.length < n) : parseAll n p = some (es ++ [.streamEnd]) := by
  obtain ⟨k, rfl⟩ : ∃ k, n = (k + 1) + es.length := ⟨n - es.length - 1, by omega⟩
  rw [h, parseAll]
  simp [parseStep, parseDocumentStart]

/-- a document without marker, with the tokens of its content -/
theorem parse_single {es : List WEvent} {ts : List YTok} (h : NodeT false es ts) :
    parseTokens (.streamStart :: (ts ++ [.streamEnd])) = some (documentEvents [some es]) := by
  obtain ⟨t, r, rfl, ht, _, h1, h2, h3⟩ := node_first h
  obtain ⟨e, b, p, g1, g2, g3, g4⟩ := node_run h .blockNode .documentEnd [] [.streamEnd] (by simp)
  have hlen := node_length h
  have : ParseRun ⟨.streamStart, [], .streamStart :: (t :: r ++ [.streamEnd])⟩ (.streamStart :: .docStart :: (es.map WEvent.read ++ [.docEnd]))
      ⟨.documentStart, [], [.streamEnd]⟩ := by
    refine ParseRun.step (q := ⟨.implicitDocumentStart, [], t :: r ++ [.streamEnd]⟩) rfl (by simp)
      (ParseRun.step (q := ⟨.blockNode, [.documentEnd], t :: r ++ [.streamEnd]⟩) ?_ (by simp) ?_)
    · simp only [parseStep, parseDocumentStart, if_true, List.cons_append]
    · rw [g1]
      exact ParseRun.step g2 g3 (g4.append (ParseRun.step rfl (by simp) (ParseRun.nil _)))
  unfold parseTokens
  rw [this.finish (by simp only [List.length_cons, List.length_append, List.length_map, List.length_nil] at hlen ⊢; omega)]
  simp [documentEvents, contentEvents]

/-- the tokens of a document behind its marker -/
def DocT (d : Option (List WEvent)) (ts : List YTok) : Prop :=
  match d with
  | none => ts = []
  | some es => NodeT false es ts

theorem content_length {d : Option (List WEvent)} {ts : List YTok} (h : DocT d ts) : (contentEvents d).length ≤ 2 * ts.length + 1 := by
  cases d with
  | none => simp [contentEvents]
  | some es => have := node_length h; simp only [contentEvents, List.length_map]; omega

theorem content_run {d : Option (List WEvent)} {ts : List YTok} (h : DocT d ts) {c : YTok} (R : List YTok) (hc : c = .documentStart ∨ c = .streamEnd) :
    ParseRun ⟨.documentContent, [.documentEnd], ts ++ c :: R⟩ (contentEvents d) ⟨.documentEnd, [], c :: R⟩ := by
  cases d with
  | none =>
    cases h
    rw [List.nil_append]
    rcases hc with rfl | rfl <;> exact ParseRun.step rfl (by simp) (ParseRun.nil _)
  | some es =>
    have hd : NodeT false es ts := h
    obtain ⟨t, r, rfl, ht, _, h1, h2, h3⟩ := node_first hd
    obtain ⟨e, b, p, g1, g2, g3, g4⟩ := node_run hd .documentContent .documentEnd [] (c :: R) (by simp)
    rw [contentEvents, g1]
    refine ParseRun.step (q := p) ?_ g3 g4
    rw [← g2]
    simp only [parseStep, parseDocumentContent, List.cons_append]
    split
    · rename_i h; cases h
    · rename_i h; cases h; exact absurd rfl h1
    · rename_i h; cases h; exact absurd rfl h2
    · rename_i h; cases h; exact absurd rfl h3
    · rfl

/-- documents, each with a marker in front of it -/
theorem parse_stream (docs : List (Option (List WEvent) × List YTok)) (hne : docs ≠ []) (h : ∀ d ∈ docs, DocT d.1 d.2) :
    parseTokens (.streamStart :: (docs.flatMap (fun d => .documentStart :: d.2) ++ [.streamEnd])) = some (documentEvents (docs.map Prod.fst)) := by
  have key : ∀ docs : List (Option (List WEvent) × List YTok), (∀ d ∈ docs, DocT d.1 d.2) →
      ParseRun ⟨.documentStart, [], docs.flatMap (fun d => .documentStart :: d.2) ++ [.streamEnd]⟩
        (docs.flatMap (fun d => .docStart :: (contentEvents d.1 ++ [.docEnd]))) ⟨.documentStart, [], [.streamEnd]⟩ ∧
      (docs.flatMap (fun d => YEvent.docStart :: (contentEvents d.1 ++ [.docEnd]))).length ≤ 3 * (docs.flatMap (fun d => YTok.documentStart :: d.2)).length := by
    intro docs
    induction docs with
    | nil => intro _; exact ⟨ParseRun.nil _, by simp⟩
    | cons d ds ih =>
      intro h
      obtain ⟨i1, i2⟩ := ih (fun x hx => h x (List.mem_cons_of_mem _ hx))
      have hd := h d (List.mem_cons_self ..)
      have hlen := content_length hd
      obtain ⟨es, ts⟩ := d
      refine ⟨?_, by simp only [List.flatMap_cons, List.length_append, List.length_cons, List.length_nil] at i2 hlen ⊢; omega⟩
      rw [List.flatMap_cons, List.flatMap_cons]
      simp only [List.cons_append, List.append_assoc]
      refine ParseRun.step (q := ⟨.documentContent, [.documentEnd], _⟩) rfl (by simp) ?_
      have hnext : ∃ c R, ds.flatMap (fun d => .documentStart :: d.2) ++ [.streamEnd] = c :: R ∧ (c = .documentStart ∨ c = .streamEnd) := by
        cases ds with
        | nil => exact ⟨_, _, rfl, .inr rfl⟩
        | cons d ds => exact ⟨_, _, rfl, .inl rfl⟩
      obtain ⟨c, R, hR, hc⟩ := hnext
      rw [hR] at i1 ⊢
      refine (content_run hd R hc).append (ParseRun.step (q := ⟨.documentStart, [], _⟩) ?_ (by simp) i1)
      rcases hc with rfl | rfl <;> rfl
  obtain ⟨k1, k2⟩ := key docs h
  have : ParseRun ⟨.streamStart, [], .streamStart :: (docs.flatMap (fun d => .documentStart :: d.2) ++ [.streamEnd])⟩
      (.streamStart :: docs.flatMap (fun d => .docStart :: (contentEvents d.1 ++ [.docEnd]))) ⟨.documentStart, [], [.streamEnd]⟩ := by
    refine ParseRun.step rfl (by simp) ?_
    cases docs with
    | nil => exact absurd rfl hne
    | cons d ds =>
      rw [List.flatMap_cons, List.flatMap_cons] at k1 ⊢
      simp only [List.cons_append] at k1 ⊢
      exact ParseRun.congr rfl k1
  unfold parseTokens
  rw [this.finish (by simp only [List.length_cons, List.length_append, List.length_nil] at k2 ⊢; omega)]
  simp [documentEvents, List.flatMap_map]

end Spiff
