import Verif.Props.JsonScan
/-
C87: the tokens of a JSON text.
-/
namespace Spiff
open Spec

/-! ### JSON values -/

/-- a JSON value: a word or number, a string, an array, or an object -/
inductive JTree where
  | word (t : YText)
  | text (s : YText)
  | seq (l : List JTree)
  | map (m : List (YText × JTree))

mutual
/-- its text -/
def JTree.print : JTree → YText
  | .word t => t
  | .text s => jsonQuote s
  | .seq l => '[' :: (printItems true l ++ [']'])
  | .map m => '{' :: (printFields true m ++ ['}'])
termination_by structural t => t
def printItems : Bool → List JTree → YText
  | _, [] => []
  | first, t :: r => (if first then [] else [',']) ++ (t.print ++ printItems false r)
termination_by structural _ l => l
def printFields : Bool → List (YText × JTree) → YText
  | _, [] => []
  | first, (k, t) :: r => (if first then [] else [',']) ++ (jsonQuote k ++ ':' :: (t.print ++ printFields false r))
termination_by structural _ l => l
end

mutual
/-- its tokens -/
def JTree.toks : JTree → List YTok
  | .word t => [.scalar .plain t]
  | .text s => [.scalar .double s]
  | .seq l => .flowSeqStart :: (itemToks true l ++ [.flowSeqEnd])
  | .map m => .flowMapStart :: (fieldToks true m ++ [.flowMapEnd])
termination_by structural t => t
def itemToks : Bool → List JTree → List YTok
  | _, [] => []
  | first, t :: r => (if first then [] else [.flowEntry]) ++ (t.toks ++ itemToks false r)
termination_by structural _ l => l
def fieldToks : Bool → List (YText × JTree) → List YTok
  | _, [] => []
  | first, (k, t) :: r => (if first then [] else [.flowEntry]) ++ (.key :: .scalar .double k :: .value :: (t.toks ++ fieldToks false r))
termination_by structural _ l => l
end

/-- a word or number -/
structure Word (w : YText) : Prop where
  plain : PlainText w
  ne : w ≠ []
  chars : ∀ c ∈ w, c ≠ ' ' ∧ c ≠ '#' ∧ flowEnds c = false

mutual
/-- words are words, and the characters of texts are admissible -/
def JTree.ok : JTree → Prop
  | .word t => Word t
  | .text s => ∀ c ∈ s, JsonSafeC c
  | .seq l => itemsOk l
  | .map m => fieldsOk m
termination_by structural t => t
def itemsOk : List JTree → Prop
  | [] => True
  | t :: r => t.ok ∧ itemsOk r
termination_by structural l => l
def fieldsOk : List (YText × JTree) → Prop
  | [] => True
  | (k, t) :: r => (∀ c ∈ k, JsonSafeC c) ∧ (jsonQuote k).length ≤ 1024 ∧ t.ok ∧ fieldsOk r
termination_by structural l => l
end

/-! ### keys -/

/-- no key is required -/
def Free (ks : List (Option SimpleKey)) : Prop := ∀ key, some key ∈ ks → key.required = false

theorem free_stale (t : YText) : ∀ (ks : List (Option SimpleKey)), Free ks → ∃ ks', staleKeys t ks = some ks' ∧ Free ks' ∧ ks'.length = ks.length := by
  intro ks
  induction ks with
  | nil => intro _; exact ⟨[], rfl, by simp [Free], rfl⟩
  | cons k r ih =>
    intro h
    obtain ⟨ks', h1, h2, h3⟩ := ih (fun key hk => h key (List.mem_cons_of_mem _ hk))
    cases k with
    | none =>
      refine ⟨none :: ks', by simp [staleKeys, h1], ?_, by simp [h3]⟩
      intro key hk
      exact h2 key (by simpa using hk)
    | some k =>
      have hk := h k (by simp)
      by_cases hs : keyStale k t = true
      · refine ⟨none :: ks', by simp [staleKeys, h1, hs, hk], ?_, by simp [h3]⟩
        intro key hk
        exact h2 key (by simpa using hk)
      · refine ⟨some k :: ks', by simp [staleKeys, h1, hs], ?_, by simp [h3]⟩
        intro key hk'
        rcases List.mem_cons.1 hk' with h | h
        · cases h; exact hk
        · exact h2 key h

theorem Free.tail {k : Option SimpleKey} {r : List (Option SimpleKey)} (h : Free (k :: r)) : Free r := fun key hk => h key (List.mem_cons_of_mem _ hk)

theorem Free.none {r : List (Option SimpleKey)} (h : Free r) : Free (none :: r) := fun key hk => h key (by simpa using hk)

theorem Free.some {r : List (Option SimpleKey)} (h : Free r) {k : SimpleKey} (hk : k.required = false) : Free (some k :: r) := by
  intro key hm
  rcases List.mem_cons.1 hm with e | e
  · cases e; exact hk
  · exact h key e

/-! ### steps in flow context -/

theorem flow_settle {t : YText} (hv : Vis t) (col f : Nat) (al : Bool) {ks ks' : List (Option SimpleKey)} (h : staleKeys t ks = some ks') (T : List YTok) :
    settle ⟨t, col, -1, [], f + 1, al, ks, T⟩ = some ⟨t, col, -1, [], f + 1, al, ks', T⟩ := by
  unfold settle
  simp only [toNext_vis (f + 1) al col hv, h, Option.map_some, unrollIndent]
  simp

theorem free_removeKey {t : YText} {col f : Nat} {j : Int} {js : List Int} {al : Bool} {k : Option SimpleKey} {ks : List (Option SimpleKey)} (h : Free (k :: ks)) (T : List YTok) :
    removeKey ⟨t, col, j, js, f, al, k :: ks, T⟩ = some ⟨t, col, j, js, f, al, none :: ks, T⟩ := by
  cases k with
  | none => rfl
  | some k => simp [removeKey, h k (by simp)]

/-- the key saved for a level -/
def nextKey (al : Bool) (k : Option SimpleKey) (T : List YTok) (col : Nat) (text : YText) : Option SimpleKey := if al then some ⟨false, T.length, col, text⟩ else k

theorem free_nextKey {al : Bool} {k : Option SimpleKey} {ks : List (Option SimpleKey)} (h : Free (k :: ks)) (T : List YTok) (col : Nat) (text : YText) :
    Free (nextKey al k T col text :: ks) := by
  unfold nextKey
  cases al with
  | true => exact h.tail.some rfl
  | false => exact h

theorem flow_saveKey {t : YText} {col f : Nat} {al : Bool} {k : Option SimpleKey} {ks : List (Option SimpleKey)} (h : Free (k :: ks)) (T : List YTok) :
    saveKey ⟨t, col, -1, [], f + 1, al, k :: ks, T⟩ = some ⟨t, col, -1, [], f + 1, al, nextKey al k T col t :: ks, T⟩ := by
  unfold saveKey nextKey
  cases al with
  | false => simp
  | true => simp [free_removeKey h]

/-- a scalar in flow context -/
theorem flow_scalar {t : YText} (hv : Vis t) {col f : Nat} {al : Bool} {k : Option SimpleKey} {ks : List (Option SimpleKey)} (h : Free (k :: ks)) (T : List YTok)
    (hk : flowKind col t = .plain ∨ flowKind col t = .double) {tok : ScalarTok} (ht : scanFlowScalar (-1) col t = some tok) :
    ∃ k' ks', staleKeys t (k :: ks) = some (k' :: ks') ∧ Free (k' :: ks') ∧ ks'.length = ks.length ∧
    fetchNext ⟨t, col, -1, [], f + 1, al, k :: ks, T⟩ =
      some ⟨tok.rest, tok.col, -1, [], f + 1, tok.broken, nextKey al k' T col t :: ks', T ++ [.scalar tok.style tok.value]⟩ := by
  obtain ⟨ks2, h1, h2, h3⟩ := free_stale t (k :: ks) h
  obtain ⟨k', ks', rfl⟩ : ∃ k' ks', ks2 = k' :: ks' := by
    cases ks2 with
    | nil => simp at h3
    | cons a b => exact ⟨a, b, rfl⟩
  refine ⟨k', ks', h1, h2, by simpa using h3, ?_⟩
  unfold fetchNext
  rw [flow_settle hv col f al h1, Option.bind_some]
  have : dispatch ⟨t, col, -1, [], f + 1, al, k' :: ks', T⟩ = fetchFlowScalar ⟨t, col, -1, [], f + 1, al, k' :: ks', T⟩ := by
    unfold dispatch
    rcases hk with h | h <;> simp [h]
  rw [this, fetchFlowScalar, flow_saveKey h2]
  simp [scanTok, ht]

/-! ### words -/

theorem plainFlow_cons (indent f : Nat) (head : Bool) (s : YText) (b : Blanks) (col : Nat) (c : Char) (r : YText) :
    plainFlow indent (f + 1) head s b col (c :: r) =
      (if head && ((col = 0 && docMarker (c :: r)) || c = '#') then some (s, col, c :: r, b.lead)
      else if isZeroC c then some (s, col, c :: r, b.lead)
      else if isBlankC c || isBreakC c then
        match eatBlanks indent b col (c :: r) with
        | none => none
        | some (b', col', r') => plainFlow indent f true s b' col' r'
      else if c = ':' && !followedBy r then none
      else if flowEnds c then some (s, col, c :: r, b.lead)
      else plainFlow indent f false (s ++ b.join ++ [c]) {} (col + 1) r) := rfl

/-- the characters behind a value -/
def JStops (c : Char) : Prop := c = ',' ∨ c = ']' ∨ c = '}'

theorem word_parts {w : YText} (hw : Word w) {c : Char} (hc : c ∈ w) :
    isZeroC c = false ∧ (isBlankC c || isBreakC c) = false ∧ c ≠ ':' ∧ c ≠ '#' ∧ flowEnds c = false := by
  obtain ⟨h1, h2, h3⟩ := hw.chars c hc
  obtain ⟨d1, d2, d3⟩ := dark_parts (ascii_dark (hw.plain.printable c hc) h1)
  exact ⟨d3, by simp [d1, d2], by rintro rfl; exact absurd h3 (by decide), h2, h3⟩

theorem word_flow {w : YText} (hw : Word w) {c : Char} (hc : JStops c) (rest : YText) (indent : Nat) : ∀ (v s : YText) (head : Bool) (col fuel : Nat),
    (∀ x ∈ v, x ∈ w) → 0 < col → (v ++ c :: rest).length < fuel →
    plainFlow indent fuel head s {} col (v ++ c :: rest) = some (s ++ v, col + v.length, c :: rest, false) := by
  intro v
  induction v with
  | nil =>
    intro s head col fuel _ hcol hf
    obtain ⟨f, rfl⟩ : ∃ f, fuel = f + 1 := ⟨fuel - 1, by omega⟩
    rw [List.nil_append, plainFlow_cons]
    have h1 : isZeroC c = false ∧ (isBlankC c || isBreakC c) = false ∧ c ≠ ':' ∧ c ≠ '#' ∧ flowEnds c = true := by
      rcases hc with rfl | rfl | rfl <;> decide
    obtain ⟨a1, a2, a3, a4, a5⟩ := h1
    simp [a1, a2, a3, a4, a5, col_ne hcol]
  | cons x v ih =>
    intro s head col fuel hv hcol hf
    obtain ⟨f, rfl⟩ : ∃ f, fuel = f + 1 := ⟨fuel - 1, by omega⟩
    obtain ⟨a1, a2, a3, a4, a5⟩ := word_parts hw (hv x (by simp))
    rw [List.cons_append, plainFlow_cons]
    simp only [a1, a2, a3, a4, a5, col_ne hcol, Bool.false_and, Bool.and_false, Bool.or_self, decide_false, Bool.false_eq_true, if_false]
    rw [ih _ false (col + 1) f (fun y hy => hv y (by simp [hy])) (by omega) (by simp at hf ⊢; omega)]
    simp [Blanks.join]
    omega

theorem word_folded {w : YText} (hw : Word w) (n : Nat) : ∀ v : YText, (∀ x ∈ v, x ∈ w) → Folded false n v v := by
  intro v
  induction v with
  | nil => intro _; exact .nil
  | cons c r ih =>
    intro h
    exact .char c r r (hw.plain.printable c (h c (by simp))) (hw.chars c (h c (by simp))).1 (ih (fun x hx => h x (by simp [hx])))

theorem word_vis {w : YText} (hw : Word w) : Vis w := plain_first hw.plain hw.ne (word_folded hw 2 w (fun _ h => h))

theorem word_kind {w : YText} (hw : Word w) {rest : YText} (h1 : rest.head? ≠ some '-') (h2 : rest.head? ≠ some '.') (col : Nat) :
    tokenKind col (w ++ rest) = .plain := plain_kind hw.plain hw.ne (word_folded hw 2 w (fun _ h => h)) h1 h2 col

theorem flowKind_of {col : Nat} {c : Char} {r : YText} (h : c ≠ '?' ∧ c ≠ ':' ∧ c ≠ '|' ∧ c ≠ '>') : flowKind col (c :: r) = tokenKind col (c :: r) := by
  unfold flowKind
  split
  · rename_i e; cases e; exact absurd rfl h.1
  · rename_i e; cases e; exact absurd rfl h.2.1
  · rename_i e; cases e; exact absurd rfl h.2.2.1
  · rename_i e; cases e; exact absurd rfl h.2.2.2
  · rfl

theorem word_flowKind {w : YText} (hw : Word w) {c : Char} (hc : JStops c) (rest : YText) (col : Nat) : flowKind col (w ++ c :: rest) = .plain := by
  have h := word_kind hw (rest := c :: rest) (by rcases hc with rfl | rfl | rfl <;> simp) (by rcases hc with rfl | rfl | rfl <;> simp) col
  cases hww : w with
  | nil => exact absurd hww hw.ne
  | cons x r =>
    rw [hww] at h
    rw [List.cons_append] at h ⊢
    rw [flowKind_of, h]
    have hx := (hw.chars x (by simp [hww])).2.2
    have hi := hw.plain.indicator x r hww
    simp only [List.mem_cons, List.not_mem_nil, or_false, not_or] at hi
    exact ⟨by rintro rfl; exact absurd hx (by decide), by rintro rfl; exact absurd hx (by decide), by tauto, by tauto⟩

/-! ### values in flow context -/

/-- the tokens `ts` are found in the text `t` inside of a collection -/
def FlowRun (t : YText) (ts : List YTok) : Prop := ∀ (f col : Nat) (al : Bool) (k : Option SimpleKey) (ks : List (Option SimpleKey)) (T : List YTok) (c : Char) (rest : YText),
  0 < col → JStops c → Free (k :: ks) → ∃ col' k' ks', 0 < col' ∧ Free (k' :: ks') ∧ ks'.length = ks.length ∧
    Leads ⟨t ++ c :: rest, col, -1, [], f + 1, al, k :: ks, T⟩ ⟨c :: rest, col', -1, [], f + 1, false, k' :: ks', T ++ ts⟩

theorem word_run {w : YText} (hw : Word w) : FlowRun w [.scalar .plain w] := by
  intro f col al k ks T c rest hcol hc hk
  have hscan : scanFlowScalar (-1) col (w ++ c :: rest) = some ⟨.plain, w, col + w.length, c :: rest, false⟩ := by
    unfold scanFlowScalar
    rw [word_flowKind hw hc]
    simp only
    rw [word_flow hw hc rest _ w [] true col _ (fun _ h => h) hcol (by omega)]
    rfl
  obtain ⟨k', ks', h1, h2, h3, h4⟩ := flow_scalar (f := f) (al := al) ((word_vis hw).append (c :: rest)) hk T (.inl (word_flowKind hw hc rest col)) hscan
  have hlen : 0 < w.length := List.length_pos_iff.2 hw.ne
  exact ⟨col + w.length, _, ks', by omega, free_nextKey h2 T col _, h3, Leads.step h4 (by simp) (by simp; omega)⟩

theorem scan_text {s : YText} (hs : ∀ c ∈ s, JsonSafeC c) (rest : YText) (col : Nat) : ∃ col', 0 < col' ∧
    flowText false (jsonQuote s ++ rest).length [] (col + 1) ((jsonQuote s ++ rest).drop 1) = some (s, col', rest) := by
  obtain ⟨col', h1, h2⟩ := json_string_read rest s.length s (Nat.le_refl _) hs [] (col + 1) (jsonQuote s ++ rest).length (by omega) (by simp [jsonQuote])
  refine ⟨col', h1, ?_⟩
  rw [List.nil_append] at h2
  rw [← h2]
  simp [jsonQuote]

theorem text_flowKind (s rest : YText) (col : Nat) : flowKind col (jsonQuote s ++ rest) = .double := by
  rw [jsonQuote, List.cons_append, flowKind_of (by decide), kind_double]

theorem text_vis (s rest : YText) : Vis (jsonQuote s ++ rest) := vis_double _

/-- a string and its key -/
theorem text_step {s : YText} (hs : ∀ c ∈ s, JsonSafeC c) (f col : Nat) (al : Bool) {k : Option SimpleKey} {ks : List (Option SimpleKey)} (hk : Free (k :: ks))
    (T : List YTok) (rest : YText) : ∃ col' k' ks', 0 < col' ∧ Free (k' :: ks') ∧ ks'.length = ks.length ∧
    Leads ⟨jsonQuote s ++ rest, col, -1, [], f + 1, al, k :: ks, T⟩
      ⟨rest, col', -1, [], f + 1, false, nextKey al k' T col (jsonQuote s ++ rest) :: ks', T ++ [.scalar .double s]⟩ := by
  obtain ⟨col', hc, hr⟩ := scan_text hs rest col
  have hscan : scanFlowScalar (-1) col (jsonQuote s ++ rest) = some ⟨.double, s, col', rest, false⟩ := by
    unfold scanFlowScalar
    rw [text_flowKind]
    simp only
    rw [hr]
    rfl
  obtain ⟨k', ks', h1, h2, h3, h4⟩ := flow_scalar (f := f) (al := al) (text_vis s rest) hk T (.inr (text_flowKind s rest col)) hscan
  exact ⟨col', k', ks', hc, h2, h3, Leads.step h4 (by simp) (by simp [jsonQuote]; omega)⟩

theorem text_run {s : YText} (hs : ∀ c ∈ s, JsonSafeC c) : FlowRun (jsonQuote s) [.scalar .double s] := by
  intro f col al k ks T c rest hcol hc hk
  obtain ⟨col', k', ks', h1, h2, h3, h4⟩ := text_step hs f col al hk T (c :: rest)
  exact ⟨col', _, ks', h1, free_nextKey h2 T col _, h3, h4⟩

/-! ### collections -/

theorem stale_head {t : YText} {k : Option SimpleKey} {ks : List (Option SimpleKey)} (h : Free (k :: ks)) :
    ∃ k' ks', staleKeys t (k :: ks) = some (k' :: ks') ∧ Free (k' :: ks') ∧ ks'.length = ks.length := by
  obtain ⟨ks2, h1, h2, h3⟩ := free_stale t (k :: ks) h
  cases ks2 with
  | nil => simp at h3
  | cons a b => exact ⟨a, b, h1, h2, by simpa using h3⟩

theorem vis_of {c : Char} (h : AsciiC c ∧ c ≠ ' ' ∧ c ≠ '#') (r : YText) : Vis (c :: r) := ⟨c, r, rfl, h⟩

/-- a collection begins -/
theorem open_step {c : Char} {tok : YTok} (hc : (c = '[' ∧ tok = .flowSeqStart) ∨ (c = '{' ∧ tok = .flowMapStart)) (r : YText) (f : Nat) {col : Nat} (al : Bool)
    {k : Option SimpleKey} {ks : List (Option SimpleKey)} (hk : Free (k :: ks)) (T : List YTok) :
    ∃ k' ks', Free (k' :: ks') ∧ ks'.length = ks.length ∧
    Leads ⟨c :: r, col, -1, [], f + 1, al, k :: ks, T⟩ ⟨r, col + 1, -1, [], f + 1 + 1, true, none :: k' :: ks', T ++ [tok]⟩ := by
  obtain ⟨k', ks', h1, h2, h3⟩ := stale_head (t := c :: r) hk
  refine ⟨nextKey al k' T col (c :: r), ks', free_nextKey h2 T col _, h3, Leads.step ?_ ?_ (by simp)⟩
  · unfold fetchNext
    have hv : Vis (c :: r) := vis_of (by unfold AsciiC; rcases hc with ⟨rfl, _⟩ | ⟨rfl, _⟩ <;> decide) r
    rw [flow_settle hv col f al h1, Option.bind_some]
    unfold dispatch
    have hsv := flow_saveKey (t := c :: r) (col := col) (f := f) (al := al) h2 T
    rcases hc with ⟨rfl, rfl⟩ | ⟨rfl, rfl⟩
    · have : flowKind col ('[' :: r) = .flowSeqStart := by rw [flowKind_of (by decide)]; simp [tokenKind, isZeroC]
      simp [this, fetchFlowStart, hsv, takeTok]
    · have : flowKind col ('{' :: r) = .flowMapStart := by rw [flowKind_of (by decide)]; simp [tokenKind, isZeroC]
      simp [this, fetchFlowStart, hsv, takeTok]
  · rcases hc with ⟨_, rfl⟩ | ⟨_, rfl⟩ <;> simp

/-- a collection ends -/
theorem close_step {c : Char} {tok : YTok} (hc : (c = ']' ∧ tok = .flowSeqEnd) ∨ (c = '}' ∧ tok = .flowMapEnd)) (r : YText) (f : Nat) {col : Nat} (al : Bool)
    {k : Option SimpleKey} {ks : List (Option SimpleKey)} (hk : Free (k :: ks)) (T : List YTok) :
    ∃ ks', Free ks' ∧ ks'.length = ks.length ∧
    Leads ⟨c :: r, col, -1, [], f + 1, al, k :: ks, T⟩ ⟨r, col + 1, -1, [], f, false, ks', T ++ [tok]⟩ := by
  obtain ⟨k', ks', h1, h2, h3⟩ := stale_head (t := c :: r) hk
  refine ⟨ks', h2.tail, h3, Leads.step ?_ ?_ (by simp)⟩
  · unfold fetchNext
    have hv : Vis (c :: r) := vis_of (by unfold AsciiC; rcases hc with ⟨rfl, _⟩ | ⟨rfl, _⟩ <;> decide) r
    rw [flow_settle hv col f al h1, Option.bind_some]
    unfold dispatch
    have hrm := free_removeKey (t := c :: r) (col := col) (f := f + 1) (j := -1) (js := []) (al := al) h2 T
    rcases hc with ⟨rfl, rfl⟩ | ⟨rfl, rfl⟩
    · have : flowKind col (']' :: r) = .flowSeqEnd := by rw [flowKind_of (by decide)]; simp [tokenKind, isZeroC]
      simp [this, fetchFlowEnd, hrm, takeTok]
    · have : flowKind col ('}' :: r) = .flowMapEnd := by rw [flowKind_of (by decide)]; simp [tokenKind, isZeroC]
      simp [this, fetchFlowEnd, hrm, takeTok]
  · rcases hc with ⟨_, rfl⟩ | ⟨_, rfl⟩ <;> simp

/-- a comma -/
theorem comma_step (r : YText) (f : Nat) {col : Nat} (al : Bool)
    {k : Option SimpleKey} {ks : List (Option SimpleKey)} (hk : Free (k :: ks)) (T : List YTok) :
    ∃ ks', Free (none :: ks') ∧ ks'.length = ks.length ∧
    Leads ⟨',' :: r, col, -1, [], f + 1, al, k :: ks, T⟩ ⟨r, col + 1, -1, [], f + 1, true, none :: ks', T ++ [.flowEntry]⟩ := by
  obtain ⟨k', ks', h1, h2, h3⟩ := stale_head (t := ',' :: r) hk
  refine ⟨ks', h2.tail.none, h3, Leads.step ?_ (by simp) (by simp)⟩
  unfold fetchNext
  have hv : Vis (',' :: r) := vis_of (by unfold AsciiC; decide) r
  rw [flow_settle hv col f al h1, Option.bind_some]
  unfold dispatch
  have hrm := free_removeKey (t := ',' :: r) (col := col) (f := f + 1) (j := -1) (js := []) (al := al) h2 T
  have : flowKind col (',' :: r) = .flowEntry := by rw [flowKind_of (by decide)]; simp [tokenKind, isZeroC]
  simp [this, fetchFlowEntry, hrm, takeTok]

/-- the key of a field, and the colon behind it -/
theorem field_step {s : YText} (hs : ∀ c ∈ s, JsonSafeC c) (hl : (jsonQuote s).length ≤ 1024) (r : YText) (f : Nat) {col : Nat}
    {k : Option SimpleKey} {ks : List (Option SimpleKey)} (hk : Free (k :: ks)) (T : List YTok) :
    ∃ col' ks', 0 < col' ∧ Free (none :: ks') ∧ ks'.length = ks.length ∧
    Leads ⟨jsonQuote s ++ ':' :: r, col, -1, [], f + 1, true, k :: ks, T⟩
      ⟨r, col', -1, [], f + 1, false, none :: ks', T ++ [.key, .scalar .double s, .value]⟩ := by
  obtain ⟨col', k', ks', h1, h2, h3, h4⟩ := text_step hs f col true hk T (':' :: r)
  obtain ⟨ks2, g1, g2, g3⟩ := free_stale (':' :: r) ks' h2.tail
  refine ⟨col' + 1, ks2, by omega, g2.none, by omega, h4.trans (Leads.step ?_ (by simp) (by simp))⟩
  have hfresh : keyStale ⟨false, T.length, col, jsonQuote s ++ ':' :: r⟩ (':' :: r) = false := by
    unfold keyStale
    simp only
    have : (jsonQuote s ++ ':' :: r).length - (':' :: r).length = (jsonQuote s).length := by simp
    rw [this, List.take_left']
    · simp only [Bool.or_eq_false_iff, decide_eq_false_iff_not]
      refine ⟨?_, by omega⟩
      rw [List.any_eq_false]
      intro c hc
      simp [(json_string_chars hs c hc).2]
    · rfl
  have hst : staleKeys (':' :: r) (nextKey true k' T col (jsonQuote s ++ ':' :: r) :: ks') =
      some (some ⟨false, T.length, col, jsonQuote s ++ ':' :: r⟩ :: ks2) := by
    simp [nextKey, staleKeys, hfresh, g1]
  unfold fetchNext
  have hv : Vis (':' :: r) := vis_of (by unfold AsciiC; decide) r
  rw [flow_settle hv col' f false hst, Option.bind_some]
  unfold dispatch
  have : flowKind col' (':' :: r) = .value := rfl
  simp [this, fetchValue, insertTok_at, rollIndent, takeTok]

theorem items_next (l : List JTree) (rest : YText) : ∃ c r, JStops c ∧ printItems false l ++ ']' :: rest = c :: r := by
  cases l with
  | nil => exact ⟨_, _, .inr (.inl rfl), rfl⟩
  | cons t r => exact ⟨',', t.print ++ printItems false r ++ ']' :: rest, .inl rfl, by simp [printItems]⟩

theorem fields_next (l : List (YText × JTree)) (rest : YText) : ∃ c r, JStops c ∧ printFields false l ++ '}' :: rest = c :: r := by
  cases l with
  | nil => exact ⟨_, _, .inr (.inr rfl), rfl⟩
  | cons t r =>
    obtain ⟨k, t⟩ := t
    exact ⟨',', jsonQuote k ++ ':' :: (t.print ++ printFields false r) ++ '}' :: rest, .inl rfl, by simp [printFields]⟩

/-- the tokens of the entries of a collection, up to its end -/
def EntriesRun (close : Char) (print : Bool → YText) (toks : Bool → List YTok) : Prop :=
  ∀ (first : Bool) (f col : Nat) (k : Option SimpleKey) (ks : List (Option SimpleKey)) (T : List YTok) (rest : YText), 0 < col → Free (k :: ks) →
    ∃ col' al' k' ks', 0 < col' ∧ Free (k' :: ks') ∧ ks'.length = ks.length ∧
    Leads ⟨print first ++ close :: rest, col, -1, [], f + 1, first, k :: ks, T⟩ ⟨close :: rest, col', -1, [], f + 1, al', k' :: ks', T ++ toks first⟩

/-- the tokens of a value inside of a collection, and those of its entries -/
def ValueRun (t : JTree) : Prop := t.ok → FlowRun t.print t.toks ∧
  (∀ l, t = .seq l → EntriesRun ']' (fun b => printItems b l) (fun b => itemToks b l)) ∧
  (∀ m, t = .map m → EntriesRun '}' (fun b => printFields b m) (fun b => fieldToks b m))

theorem value_run (t : JTree) : ValueRun t := by
  refine JTree.rec
    (motive_1 := fun t => ValueRun t)
    (motive_2 := fun l => itemsOk l → EntriesRun ']' (fun b => printItems b l) (fun b => itemToks b l))
    (motive_3 := fun m => fieldsOk m → EntriesRun '}' (fun b => printFields b m) (fun b => fieldToks b m))
    (motive_4 := fun e => ValueRun e.2)
    ?_ ?_ ?_ ?_ ?_ ?_ ?_ ?_ ?_ t
  · intro w h
    exact ⟨word_run h, by simp, by simp⟩
  · intro s h
    exact ⟨text_run h, by simp, by simp⟩
  · intro l ih h
    refine ⟨?_, fun l' hl => by cases hl; exact ih h, by simp⟩
    intro f col al k ks T c rest hcol hc hk
    obtain ⟨k1, ks1, a1, a2, a3⟩ := open_step (.inl ⟨rfl, rfl⟩) (printItems true l ++ ']' :: c :: rest) f (col := col) al hk T
    obtain ⟨col2, al2, k2, ks2, b1, b2, b3, b4⟩ := ih h true (f + 1) (col + 1) none (k1 :: ks1) (T ++ [.flowSeqStart]) (c :: rest) (by omega) a1.none
    obtain ⟨ks3, c1, c2, c3⟩ := close_step (.inl ⟨rfl, rfl⟩) (c :: rest) (f + 1) (col := col2) al2 b2 (T ++ [.flowSeqStart] ++ itemToks true l)
    obtain ⟨k4, ks4, rfl⟩ : ∃ k4 ks4, ks3 = k4 :: ks4 := by
      cases ks3 with
      | nil => simp [b3] at c2
      | cons a b => exact ⟨a, b, rfl⟩
    refine ⟨col2 + 1, k4, ks4, by omega, c1, by simp at b3 c2; omega, ?_⟩
    simp only [JTree.print, JTree.toks, List.cons_append, List.append_assoc, List.nil_append] at a3 b4 c3 ⊢
    exact a3.trans (b4.trans c3)
  · intro m ih h
    refine ⟨?_, by simp, fun l' hl => by cases hl; exact ih h⟩
    intro f col al k ks T c rest hcol hc hk
    obtain ⟨k1, ks1, a1, a2, a3⟩ := open_step (.inr ⟨rfl, rfl⟩) (printFields true m ++ '}' :: c :: rest) f (col := col) al hk T
    obtain ⟨col2, al2, k2, ks2, b1, b2, b3, b4⟩ := ih h true (f + 1) (col + 1) none (k1 :: ks1) (T ++ [.flowMapStart]) (c :: rest) (by omega) a1.none
    obtain ⟨ks3, c1, c2, c3⟩ := close_step (.inr ⟨rfl, rfl⟩) (c :: rest) (f + 1) (col := col2) al2 b2 (T ++ [.flowMapStart] ++ fieldToks true m)
    obtain ⟨k4, ks4, rfl⟩ : ∃ k4 ks4, ks3 = k4 :: ks4 := by
      cases ks3 with
      | nil => simp [b3] at c2
      | cons a b => exact ⟨a, b, rfl⟩
    refine ⟨col2 + 1, k4, ks4, by omega, c1, by simp at b3 c2; omega, ?_⟩
    simp only [JTree.print, JTree.toks, List.cons_append, List.append_assoc, List.nil_append] at a3 b4 c3 ⊢
    exact a3.trans (b4.trans c3)
  · intro _ first f col k ks T rest hcol hk
    refine ⟨col, first, k, ks, hcol, hk, rfl, ?_⟩
    simp only [printItems, itemToks, List.nil_append, List.append_nil]
    exact ⟨0, by simp, fun n => rfl⟩
  · intro t r iht ihr h first f col k ks T rest hcol hk
    rw [itemsOk] at h
    have main : ∀ (col : Nat) (k : Option SimpleKey) (ks : List (Option SimpleKey)) (T : List YTok), 0 < col → Free (k :: ks) →
        ∃ col' al' k' ks', 0 < col' ∧ Free (k' :: ks') ∧ ks'.length = ks.length ∧
        Leads ⟨t.print ++ (printItems false r ++ ']' :: rest), col, -1, [], f + 1, true, k :: ks, T⟩
          ⟨']' :: rest, col', -1, [], f + 1, al', k' :: ks', T ++ (t.toks ++ itemToks false r)⟩ := by
      intro col k ks T hcol hk
      obtain ⟨c, u, hc, hu⟩ := items_next r rest
      obtain ⟨col1, k1, ks1, a1, a2, a3, a4⟩ := (iht h.1).1 f col true k ks T c u hcol hc hk
      rw [← hu] at a4
      obtain ⟨col2, al2, k2, ks2, b1, b2, b3, b4⟩ := ihr h.2 false f col1 k1 ks1 (T ++ t.toks) rest a1 a2
      refine ⟨col2, al2, k2, ks2, b1, b2, by omega, ?_⟩
      rw [List.append_assoc] at b4
      exact a4.trans b4
    cases first with
    | true =>
      obtain ⟨col', al', k', ks', h1, h2, h3, h4⟩ := main col k ks T hcol hk
      refine ⟨col', al', k', ks', h1, h2, h3, ?_⟩
      simpa [printItems, itemToks] using h4
    | false =>
      obtain ⟨ks1, a1, a2, a3⟩ := comma_step (t.print ++ (printItems false r ++ ']' :: rest)) f (col := col) false hk T
      obtain ⟨col', al', k', ks', h1, h2, h3, h4⟩ := main (col + 1) none ks1 (T ++ [.flowEntry]) (by omega) a1
      refine ⟨col', al', k', ks', h1, h2, by omega, ?_⟩
      have := a3.trans h4
      simpa [printItems, itemToks] using this
  · intro _ first f col k ks T rest hcol hk
    refine ⟨col, first, k, ks, hcol, hk, rfl, ?_⟩
    simp only [printFields, fieldToks, List.nil_append, List.append_nil]
    exact ⟨0, by simp, fun n => rfl⟩
  · rintro ⟨q, t⟩ r iht ihr h first f col k ks T rest hcol hk
    rw [fieldsOk] at h
    obtain ⟨hq, hl, ht, hr⟩ := h
    have main : ∀ (col : Nat) (k : Option SimpleKey) (ks : List (Option SimpleKey)) (T : List YTok), 0 < col → Free (k :: ks) →
        ∃ col' al' k' ks', 0 < col' ∧ Free (k' :: ks') ∧ ks'.length = ks.length ∧
        Leads ⟨jsonQuote q ++ ':' :: (t.print ++ (printFields false r ++ '}' :: rest)), col, -1, [], f + 1, true, k :: ks, T⟩
          ⟨'}' :: rest, col', -1, [], f + 1, al', k' :: ks', T ++ ([.key, .scalar .double q, .value] ++ (t.toks ++ fieldToks false r))⟩ := by
      intro col k ks T hcol hk
      obtain ⟨c, u, hc, hu⟩ := fields_next r rest
      obtain ⟨col0, ks0, z1, z2, z3, z4⟩ := field_step hq hl (t.print ++ (printFields false r ++ '}' :: rest)) f (col := col) hk T
      obtain ⟨col1, k1, ks1, a1, a2, a3, a4⟩ := (iht ht).1 f col0 false none ks0 (T ++ [.key, .scalar .double q, .value]) c u z1 hc z2
      rw [← hu] at a4
      obtain ⟨col2, al2, k2, ks2, b1, b2, b3, b4⟩ := ihr hr false f col1 k1 ks1 (T ++ [.key, .scalar .double q, .value] ++ t.toks) rest a1 a2
      refine ⟨col2, al2, k2, ks2, b1, b2, by omega, ?_⟩
      have hz := z4.trans (a4.trans b4)
      simp only [List.append_assoc] at hz ⊢
      exact hz
    cases first with
    | true =>
      obtain ⟨col', al', k', ks', h1, h2, h3, h4⟩ := main col k ks T hcol hk
      refine ⟨col', al', k', ks', h1, h2, h3, ?_⟩
      simpa [printFields, fieldToks] using h4
    | false =>
      obtain ⟨ks1, a1, a2, a3⟩ := comma_step (jsonQuote q ++ ':' :: (t.print ++ (printFields false r ++ '}' :: rest))) f (col := col) false hk T
      obtain ⟨col', al', k', ks', h1, h2, h3, h4⟩ := main (col + 1) none ks1 (T ++ [.flowEntry]) (by omega) a1
      refine ⟨col', al', k', ks', h1, h2, by omega, ?_⟩
      have := a3.trans h4
      simpa [printFields, fieldToks] using this
  · intro k t ih; exact ih

/-! ### documents -/

theorem blank_end (col : Nat) (al : Bool) {tail : YText} (h : tail = [] ∨ tail = ['\n']) : ∃ al' col', toNext 0 al false col tail = (al', col', []) := by
  rcases h with rfl | rfl
  · exact ⟨_, _, rfl⟩
  · exact ⟨_, _, toNext_nl al col []⟩

/-- the end of a text -/
theorem json_end {tail : YText} (h : tail = [] ∨ tail = ['\n']) (col : Nat) (al : Bool) {k : Option SimpleKey} (hk : Free [k]) (T : List YTok) (n : Nat) :
    scanAll (n + 1) ⟨tail, col, -1, [], 0, al, [k], T⟩ = some (T ++ [.streamEnd]) := by
  obtain ⟨al', col', he⟩ := blank_end col al h
  obtain ⟨k', ks', h1, h2, h3⟩ := stale_head (t := []) hk
  cases List.length_eq_zero_iff.1 h3
  have hs : settle ⟨tail, col, -1, [], 0, al, [k], T⟩ = some ⟨[], col', -1, [], 0, al', [k'], T⟩ := by
    unfold settle
    simp only [he, h1, Option.map_some, unrollIndent, unroll_stay (show (-1 : Int) ≤ (col' : Int) by omega)]
    simp
  have hf : fetchNext ⟨tail, col, -1, [], 0, al, [k], T⟩ = some ⟨[], 0, -1, [], 0, false, [none], T ++ [.streamEnd]⟩ := by
    unfold fetchNext
    rw [hs, Option.bind_some]
    simp [dispatch, tokenKind, fetchStreamEnd, unrollIndent, unrollLevels, free_removeKey h2]
  rw [scanAll, hf]
  simp

/-- a document -/
theorem json_tokens (t : JTree) (ht : t.ok) {tail : YText} (h : tail = [] ∨ tail = ['\n']) : scanText (t.print ++ tail) = some (.streamStart :: (t.toks ++ [.streamEnd])) := by
  have fin : ∀ (u : YText) (col : Nat) (al : Bool) (ks : List (Option SimpleKey)), (u = [] ∨ u = ['\n']) → Free ks → ks.length = 1 →
      Leads (.start (t.print ++ tail)) ⟨u, col, -1, [], 0, al, ks, [.streamStart] ++ t.toks⟩ →
      scanText (t.print ++ tail) = some (.streamStart :: (t.toks ++ [.streamEnd])) := by
    intro u col al ks hu hk hl hL
    obtain ⟨k, rfl⟩ := List.length_eq_one_iff.1 hl
    obtain ⟨c, hc, hr⟩ := hL
    simp only [Scanner.start] at hc hr
    unfold scanText
    obtain ⟨n, hn⟩ : ∃ n, (t.print ++ tail).length + 1 = (n + 1) + c := ⟨(t.print ++ tail).length - c, by omega⟩
    rw [hn, Scanner.start, hr, json_end hu col al hk]
    simp
  have fnone : Free [none] := by simp [Free]
  have fsaved : ∀ T col text, Free [savedKey true T col text] := by
    intro T col text key hm
    simp only [savedKey, if_true, List.mem_singleton, Option.some.injEq] at hm
    rw [hm]
  have hdark : tail.head? ≠ some '-' ∧ tail.head? ≠ some '.' := by rcases h with rfl | rfl <;> simp
  -- a collection at the top
  have start : ∀ (c : Char) (tok : YTok) (r : YText), (c = '[' ∧ tok = .flowSeqStart) ∨ (c = '{' ∧ tok = .flowMapStart) →
      ∃ k, Free [k] ∧ Leads (.start (c :: r)) ⟨r, 1, -1, [], 0 + 1, true, [none, k], [.streamStart, tok]⟩ := by
    intro c tok r hc
    refine ⟨savedKey true [.streamStart] 0 (c :: r), fsaved _ _ _, Leads.step ?_ ?_ (by simp [Scanner.start])⟩
    · have hv : Vis (c :: r) := vis_of (by unfold AsciiC; rcases hc with ⟨rfl, _⟩ | ⟨rfl, _⟩ <;> decide) r
      unfold fetchNext Scanner.start
      rw [settle_at hv (by omega), Option.bind_some]
      unfold dispatch
      have hsv := saveKey_free (t := c :: r) (col := 0) (j := -1) (by omega) [] true [.streamStart]
      rcases hc with ⟨rfl, rfl⟩ | ⟨rfl, rfl⟩
      · have : tokenKind 0 ('[' :: r) = .flowSeqStart := by simp [tokenKind, isZeroC]
        simp [this, fetchFlowStart, hsv, takeTok]
      · have : tokenKind 0 ('{' :: r) = .flowMapStart := by simp [tokenKind, isZeroC]
        simp [this, fetchFlowStart, hsv, takeTok]
    · rcases hc with ⟨_, rfl⟩ | ⟨_, rfl⟩ <;> simp
  cases t with
  | word w =>
    have hw : Word w := ht
    have hkind := word_kind hw hdark.1 hdark.2 0
    have hscan : ∃ col' rest b, scanScalar (-1) 0 (w ++ tail) = some ⟨.plain, w, col', rest, b⟩ ∧ rest = [] := by
      have hf := word_folded hw 2 w (fun _ h => h)
      obtain ⟨col', fuel', e1, e2, e3, e4⟩ := plain_read (indent := 0) (m := 0) (by omega) (by omega) (by omega) tail hf hw.plain.ending hw.plain.comment hw.plain.key
        hw.plain.keyEnd true [] {} 0 ((w ++ tail).length + 1)
        (fun _ => ⟨hw.ne, fun h => by
          cases hww : w with
          | nil => exact hw.ne hww
          | cons x y => rw [hww] at h; cases h; exact (hw.chars '#' (by simp [hww])).2.1 rfl, fun h => by
          cases hww : w with
          | nil => exact hw.ne hww
          | cons x y => rw [hww] at h; cases h; exact (hw.chars ' ' (by simp [hww])).1 rfl, fun _ => plain_no_marker hw.plain hf hdark.1 hdark.2, by omega⟩)
        (by simp) (Nat.lt_succ_self _)
      unfold scanScalar
      rw [hkind]
      simp only
      rw [show ((-1 : Int) + 1).toNat = 0 from rfl, e4]
      rcases h with rfl | rfl
      · obtain ⟨f, rfl⟩ : ∃ f, fuel' = f + 1 := ⟨fuel' - 1, by omega⟩
        exact ⟨_, _, _, by rw [plain_end_eof]; rfl, rfl⟩
      · obtain ⟨f, rfl⟩ : ∃ f, fuel' = f + 2 := ⟨fuel' - 2, by simp at e3; omega⟩
        have := plain_end_line 0 f ([] ++ Blanks.join {} ++ w) col' 0 (r := []) (by intro c r h; cases h) (.inr (.inl rfl))
        exact ⟨_, _, _, by rw [show (['\n'] : YText) = '\n' :: (List.replicate 0 ' ' ++ []) from rfl, this]; rfl, rfl⟩
    obtain ⟨col', rest, b, hs, rfl⟩ := hscan
    have hlen : 0 < w.length := List.length_pos_iff.2 hw.ne
    refine fin [] col' b _ (.inl rfl) (fsaved [.streamStart] 0 (w ++ tail)) rfl (Leads.step ?_ (by simp [JTree.toks]) (by simp [Scanner.start, JTree.print]; omega))
    exact fetch_flow ((word_vis hw).append tail) (by omega) (.inl hkind) [] true [.streamStart] hs
  | text s =>
    have hs : ∀ c ∈ s, JsonSafeC c := ht
    obtain ⟨col', h1, h2⟩ := scan_text hs tail 0
    have hkind : tokenKind 0 (jsonQuote s ++ tail) = .double := by rw [jsonQuote, List.cons_append, kind_double]
    have hscan : scanScalar (-1) 0 (jsonQuote s ++ tail) = some ⟨.double, s, col', tail, false⟩ := by
      unfold scanScalar
      rw [hkind]
      simp only
      rw [h2]
      rfl
    refine fin tail col' false _ h (fsaved [.streamStart] 0 (jsonQuote s ++ tail)) rfl (Leads.step ?_ (by simp [JTree.toks]) (by simp [Scanner.start, JTree.print, jsonQuote]; omega))
    exact fetch_flow (text_vis s tail) (by omega) (.inr (.inr hkind)) [] true [.streamStart] hscan
  | seq l =>
    have hrun := (value_run (.seq l) ht).2.1 l rfl
    obtain ⟨k, g1, g2⟩ := start '[' .flowSeqStart (printItems true l ++ ']' :: tail) (.inl ⟨rfl, rfl⟩)
    obtain ⟨col2, al2, k2, ks2, b1, b2, b3, b4⟩ := hrun true 0 1 none [k] [.streamStart, .flowSeqStart] tail (by omega) g1.none
    obtain ⟨ks3, c1, c2, c3⟩ := close_step (.inl ⟨rfl, rfl⟩) tail 0 (col := col2) al2 b2 ([.streamStart, .flowSeqStart] ++ itemToks true l)
    refine fin tail (col2 + 1) false ks3 h c1 (by simpa [b3] using c2) ?_
    simp only [JTree.print, JTree.toks, List.cons_append, List.append_assoc, List.nil_append] at g2 b4 c3 ⊢
    exact g2.trans (b4.trans c3)
  | map m =>
    have hrun := (value_run (.map m) ht).2.2 m rfl
    obtain ⟨k, g1, g2⟩ := start '{' .flowMapStart (printFields true m ++ '}' :: tail) (.inr ⟨rfl, rfl⟩)
    obtain ⟨col2, al2, k2, ks2, b1, b2, b3, b4⟩ := hrun true 0 1 none [k] [.streamStart, .flowMapStart] tail (by omega) g1.none
    obtain ⟨ks3, c1, c2, c3⟩ := close_step (.inr ⟨rfl, rfl⟩) tail 0 (col := col2) al2 b2 ([.streamStart, .flowMapStart] ++ fieldToks true m)
    refine fin tail (col2 + 1) false ks3 h c1 (by simpa [b3] using c2) ?_
    simp only [JTree.print, JTree.toks, List.cons_append, List.append_assoc, List.nil_append] at g2 b4 c3 ⊢
    exact g2.trans (b4.trans c3)

end Spiff
