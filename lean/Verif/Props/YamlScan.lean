import Verif.Props.YamlText
import Verif.Props.YamlParse
/-
C86: the tokens of scalars, keys and indicators in their surroundings.
-/
namespace Spiff
open Spec

/-! ### blanks between tokens -/

/-- something visible, which is no comment -/
def Vis (t : YText) : Prop := ∃ c r, t = c :: r ∧ AsciiC c ∧ c ≠ ' ' ∧ c ≠ '#'

theorem Vis.append {t : YText} (h : Vis t) (u : YText) : Vis (t ++ u) := by
  obtain ⟨c, r, rfl, h⟩ := h
  exact ⟨c, r ++ u, rfl, h⟩

theorem toNext_space (flow : Nat) (al : Bool) (col : Nat) (r : YText) : toNext flow al false col (' ' :: r) = toNext flow al false (col + 1) r := by
  rw [toNext, if_neg (by decide)]
  simp

theorem toNext_spaces (flow : Nat) (al : Bool) (r : YText) : ∀ (k col : Nat),
    toNext flow al false col (List.replicate k ' ' ++ r) = toNext flow al false (col + k) r := by
  intro k
  induction k with
  | zero => intro col; simp
  | succ k ih =>
    intro col
    rw [List.replicate_succ, List.cons_append, toNext_space, ih]
    congr 1
    omega

theorem toNext_nl (al : Bool) (col : Nat) (r : YText) : toNext 0 al false col ('\n' :: r) = toNext 0 true false 0 r := by
  rw [toNext, if_pos (by decide)]
  simp

theorem toNext_line (al : Bool) (col k : Nat) (r : YText) :
    toNext 0 al false col ('\n' :: (List.replicate k ' ' ++ r)) = toNext 0 true false k r := by
  rw [toNext_nl, toNext_spaces, Nat.zero_add]

theorem toNext_vis (flow : Nat) (al : Bool) (col : Nat) {t : YText} (h : Vis t) : toNext flow al false col t = (al, col, t) := by
  obtain ⟨c, r, rfl, ha, hs, hh⟩ := h
  have hb := ascii_not_break ha
  have ht : c ≠ '\t' := by rintro rfl; exact absurd ha (by unfold AsciiC; decide)
  have hf : c ≠ '\uFEFF' := by rintro rfl; exact absurd ha (by unfold AsciiC; decide)
  rw [toNext]
  simp [hb, hs, hh, ht, hf]

theorem toNext_length (flow : Nat) : ∀ (t : YText) (al cm : Bool) (col : Nat), (toNext flow al cm col t).2.2.length ≤ t.length := by
  intro t
  induction t with
  | nil => intro al cm col; simp [toNext]
  | cons c r ih =>
    intro al cm col
    rw [toNext]
    have h1 := ih (al || decide (flow = 0)) false 0
    have h2 := ih al true (col + 1)
    have h3 := ih al false (col + 1)
    rw [List.length_cons]
    by_cases c1 : isBreakC c = true
    · rw [if_pos c1]; omega
    · rw [if_neg c1]
      by_cases c2 : cm = true
      · rw [if_pos c2]
        by_cases c3 : isZeroC c = true
        · rw [if_pos c3]; simp
        · rw [if_neg c3]; omega
      · rw [if_neg c2]
        split
        · omega
        · split
          · omega
          · simp

/-! ### runs of the scanner -/

/-- the scanner comes from `s` to `s'` -/
def Leads (s s' : Scanner) : Prop := ∃ c, c + s'.text.length ≤ s.text.length ∧ ∀ n, scanAll (n + c) s = scanAll n s'

theorem Leads.trans {a b c : Scanner} (h : Leads a b) (h' : Leads b c) : Leads a c := by
  obtain ⟨n, hn, h⟩ := h
  obtain ⟨m, hm, h'⟩ := h'
  refine ⟨m + n, by omega, fun k => ?_⟩
  rw [← Nat.add_assoc, h, h']

theorem Leads.step {s m : Scanner} (h : fetchNext s = some m) (hl : m.toks.getLast? ≠ some .streamEnd) (ht : m.text.length < s.text.length) : Leads s m := by
  refine ⟨1, by omega, fun n => ?_⟩
  rw [scanAll, h, Option.bind_some, if_neg hl]

theorem Leads.same {s s' : Scanner} (h : fetchNext s = fetchNext s') (ht : s'.text.length ≤ s.text.length) : Leads s s' := by
  refine ⟨0, by omega, fun n => ?_⟩
  cases n with
  | zero => rfl
  | succ n => rw [Nat.add_zero, scanAll, scanAll, h]

theorem settle_congr {t t' : YText} {col col' : Nat} {al al' : Bool} (h : toNext 0 al false col t = toNext 0 al' false col' t')
    (i : Int) (is : List Int) (ks : List (Option SimpleKey)) (T : List YTok) :
    settle ⟨t, col, i, is, 0, al, ks, T⟩ = settle ⟨t', col', i, is, 0, al', ks, T⟩ := by
  unfold settle
  simp only [h]

theorem Leads.blanks {t t' : YText} {col col' : Nat} {al al' : Bool} (h : toNext 0 al false col t = toNext 0 al' false col' t')
    (hl : t'.length ≤ t.length) (i : Int) (is : List Int) (ks : List (Option SimpleKey)) (T : List YTok) :
    Leads ⟨t, col, i, is, 0, al, ks, T⟩ ⟨t', col', i, is, 0, al', ks, T⟩ := by
  refine Leads.same ?_ hl
  unfold fetchNext
  rw [settle_congr h]

theorem unroll_stay {col j : Int} (h : j ≤ col) (js : List Int) : unrollLevels col j js = (0, j, js) := by
  cases js with
  | nil => rfl
  | cons i r => rw [unrollLevels, if_neg (by omega)]

theorem unroll_next {col j i : Int} (h : col < j) (is : List Int) :
    unrollLevels col j (i :: is) = ((unrollLevels col i is).1 + 1, (unrollLevels col i is).2) := by
  rw [unrollLevels, if_pos (by omega)]

theorem settle_at {t : YText} (h : Vis t) {col : Nat} {j : Int} (hj : j ≤ col) (js : List Int) (al : Bool) (T : List YTok) :
    settle ⟨t, col, j, js, 0, al, [none], T⟩ = some ⟨t, col, j, js, 0, al, [none], T⟩ := by
  unfold settle
  simp only [toNext_vis 0 al col h, staleKeys, Option.map_some, unrollIndent, unroll_stay hj]
  simp

/-- a possible simple key which ends at the line -/
def Old (kx : Option SimpleKey) (r : YText) : Prop :=
  ∀ key, kx = some key → key.required = false ∧ ∃ a c b, isBreakC c = true ∧ key.text = a ++ c :: (b ++ r)

theorem old_stale {key : SimpleKey} {r u : YText} (h : Old (some key) r) (hu : u.length ≤ r.length) : keyStale key u = true := by
  obtain ⟨_, a, c, b, hc, ht⟩ := h key rfl
  unfold keyStale
  simp only [Bool.or_eq_true]
  left
  rw [List.any_eq_true]
  refine ⟨c, ?_, hc⟩
  rw [ht]
  have : (a ++ c :: (b ++ r)).length - u.length = (a ++ [c]).length + (b.length + r.length - u.length) := by simp; omega
  rw [this, show a ++ c :: (b ++ r) = (a ++ [c]) ++ (b ++ r) by simp, List.take_append, List.take_of_length_le (by omega)]
  simp

theorem settle_line {t r : YText} {col k : Nat} {al : Bool} (h : toNext 0 al false col t = toNext 0 true false k r) {kx : Option SimpleKey}
    (hk : Old kx r) (i : Int) (is : List Int) (T : List YTok) :
    settle ⟨t, col, i, is, 0, al, [kx], T⟩ = settle ⟨r, k, i, is, 0, true, [none], T⟩ := by
  unfold settle
  simp only [h]
  have hs : staleKeys (toNext 0 true false k r).2.2 [kx] = some [none] := by
    cases kx with
    | none => rfl
    | some key =>
      simp only [staleKeys, old_stale hk (toNext_length 0 r true false k), if_true, (hk key rfl).1, Bool.false_eq_true, if_false, Option.map_some]
  rw [hs]
  simp only [staleKeys, Option.map_some]

theorem Leads.line {t r : YText} {col k : Nat} {al : Bool} (h : toNext 0 al false col t = toNext 0 true false k r) {kx : Option SimpleKey}
    (hk : Old kx r) (hl : r.length ≤ t.length) (i : Int) (is : List Int) (T : List YTok) :
    Leads ⟨t, col, i, is, 0, al, [kx], T⟩ ⟨r, k, i, is, 0, true, [none], T⟩ := by
  refine Leads.same ?_ hl
  unfold fetchNext
  rw [settle_line h hk]

/-- the key saved -/
def savedKey (al : Bool) (T : List YTok) (col : Nat) (text : YText) : Option SimpleKey := if al then some ⟨false, T.length, col, text⟩ else none

theorem saveKey_free {t : YText} {col : Nat} {j : Int} (hj : j ≠ col) (js : List Int) (al : Bool) (T : List YTok) :
    saveKey ⟨t, col, j, js, 0, al, [none], T⟩ = some ⟨t, col, j, js, 0, al, [savedKey al T col t], T⟩ := by
  unfold saveKey savedKey
  cases al <;> simp [hj, removeKey]

theorem savedKey_old (al : Bool) (T : List YTok) (col : Nat) {a b r : YText} {c : Char} (hc : isBreakC c = true) :
    Old (savedKey al T col (a ++ c :: (b ++ r))) r := by
  intro key hkey
  unfold savedKey at hkey
  cases al with
  | false => cases hkey
  | true => cases hkey; exact ⟨rfl, a, c, b, hc, rfl⟩

/-! ### positions -/

/-- positions behind a node: in a line, or behind a block text at the begin of a line -/
def PosEnd (e : EPos) : Prop := e.ind = false ∨ (e.ind = true ∧ e.col = 0 ∧ e.ws = true)

/-- the end of the line at a position behind a node -/
def eol (e : EPos) : YText := if e.ind then [] else ['\n']

theorem writeIndent_pos (n : Nat) (e : EPos) : (writeIndent n e).2 = ⟨n, true, true⟩ := by
  unfold writeIndent
  split
  · rfl
  · rename_i h
    simp only [Bool.or_eq_true, Bool.not_eq_true', decide_eq_true_eq, Bool.and_eq_true, not_or] at h
    have : max e.col n = n := by omega
    rw [this]

theorem writeIndent_end {e : EPos} (h : PosEnd e) (k : Nat) : (writeIndent k e).1 = eol e ++ List.replicate k ' ' := by
  unfold writeIndent eol
  rcases h with h | ⟨h1, h2, h3⟩
  · simp [h]
  · simp [h1, h2, h3]

/-- behind a node -/
theorem Leads.behind {e : EPos} {t r : YText} {col k : Nat} {al : Bool} (he : e.ind = false) {kx : Option SimpleKey} (hk : Old kx r)
    (ht : t = (writeIndent k e).1 ++ r) (i : Int) (is : List Int) (T : List YTok) :
    Leads ⟨t, col, i, is, 0, al, [kx], T⟩ ⟨r, k, i, is, 0, true, [none], T⟩ := by
  subst ht
  rw [writeIndent_end (.inl he)]
  refine Leads.line ?_ hk (by simp; omega) i is T
  rw [eol, he]
  exact toNext_line al col k r

/-! ### scalars -/

theorem fetch_flow {t : YText} {col : Nat} {j : Int} (hv : Vis t) (hj : j < col)
    (hk : tokenKind col t = .plain ∨ tokenKind col t = .single ∨ tokenKind col t = .double)
    (js : List Int) (al : Bool) (T : List YTok) {tok : ScalarTok} (ht : scanScalar j col t = some tok) :
    fetchNext ⟨t, col, j, js, 0, al, [none], T⟩ =
      some ⟨tok.rest, tok.col, j, js, 0, tok.broken, [savedKey al T col t], T ++ [.scalar tok.style tok.value]⟩ := by
  unfold fetchNext
  rw [settle_at hv (by omega), Option.bind_some]
  have : dispatch ⟨t, col, j, js, 0, al, [none], T⟩ = fetchFlowScalar ⟨t, col, j, js, 0, al, [none], T⟩ := by
    unfold dispatch
    rcases hk with h | h | h <;> simp [h]
  rw [this, fetchFlowScalar, saveKey_free (by omega)]
  simp [scanTok, ht]

theorem fetch_block {t : YText} {col : Nat} {j : Int} (hv : Vis t) (hj : j < col) (hk : tokenKind col t = .literal)
    (js : List Int) (al : Bool) (T : List YTok) {tok : ScalarTok} (ht : scanScalar j col t = some tok) :
    fetchNext ⟨t, col, j, js, 0, al, [none], T⟩ = some ⟨tok.rest, tok.col, j, js, 0, true, [none], T ++ [.scalar tok.style tok.value]⟩ := by
  unfold fetchNext
  rw [settle_at hv (by omega), Option.bind_some]
  unfold dispatch
  simp [hk, fetchBlockScalar, removeKey, scanTok, ht]

theorem vis_single (t : YText) : Vis ('\'' :: t) := ⟨_, _, rfl, by unfold AsciiC; decide, by decide, by decide⟩
theorem vis_double (t : YText) : Vis ('"' :: t) := ⟨_, _, rfl, by unfold AsciiC; decide, by decide, by decide⟩
theorem vis_literal (t : YText) : Vis ('|' :: t) := ⟨_, _, rfl, by unfold AsciiC; decide, by decide, by decide⟩

/-- the first character of a plain text -/
theorem plain_first {n : Nat} {v t : YText} (hp : PlainText v) (hne : v ≠ []) (h : Folded false n v t) : Vis t := by
  cases v with
  | nil => exact absurd rfl hne
  | cons c r =>
    have hcs : c ≠ ' ' := fun h => hp.begin r (by rw [h])
    have ha := hp.printable c (by simp)
    have hind := hp.indicator c r rfl
    have hh : c ≠ '#' := by rintro rfl; exact hind (by simp)
    generalize hv : c :: r = v at h
    cases h with
    | nil => cases hv
    | char x r' t' _ _ hrt => cases hv; exact ⟨_, _, rfl, ha, hcs, hh⟩
    | spaces k w t' _ _ => rw [List.replicate_succ] at hv; cases hv; exact absurd rfl hcs
    | fold => cases hv; exact absurd rfl hcs

theorem plain_written {n : Nat} {s : YText} (hp : PlainText s) (hne : s ≠ []) (allow first : Bool) (e : EPos) :
    Folded false n s (singleBody false n allow first false false e s).1 := by
  have hbeg : s.head? ≠ some ' ' := by
    intro h
    cases s with
    | nil => exact hne rfl
    | cons x y => cases h; exact hp.begin y rfl
  exact singleBody_written false n allow s.length s (Nat.le_refl _) hp.printable (fun _ => hp.ending) first false e (.inr (.inr hbeg)) (by simp)

/-- the text of a scalar, and its token -/
theorem scalar_leads {i : Int} {n : Nat} (hl : -1 ≤ i) (hn : (n : Int) = max i 0 + 2) (s : YText) (req : YStyle) (hr : Asked s req) (e : EPos) :
    ∃ body e', writeText false n e (selectStyle false s req) s = (gap e ++ body, e') ∧ PosEnd e' ∧ Vis body ∧
    ∀ (k : Nat) (r : YText), NextLine i k r → ∀ (col : Nat) (al : Bool) (is : List Int) (T : List YTok), i < col →
    Leads ⟨body ++ ((writeIndent k e').1 ++ r), col, i, is, 0, al, [none], T⟩
      ⟨r, k, i, is, 0, true, [none], T ++ [.scalar (selectStyle false s req) s]⟩ := by
  have hnp : 0 < n := by omega
  have hind : ∀ (k : Nat) (e : EPos), e.ind = false → (writeIndent k e).1 = '\n' :: List.replicate k ' ' := by
    intro k e h
    rw [writeIndent_end (.inl h), eol, h]
    rfl
  cases hst : selectStyle false s req with
  | plain =>
    obtain ⟨rfl, hp⟩ := selected_plain _ _ _ hst
    have hv := plain_first hp hr.1 (plain_written (n := n) hp hr.1 true true { e with col := e.col + (gap e).length })
    refine ⟨_, _, Prod.ext (writePlain_text n true e s) rfl, .inl rfl, hv, ?_⟩
    intro k r hk col al is T hcol
    have hei : (writeText false n e .plain s).2.ind = false := rfl
    rw [hind k _ hei]
    obtain ⟨col', fuel, h1, _, h2, h3⟩ := plain_text_read (m := (i + 1).toNat) hl hnp (by omega) (by omega) hp hr.1 true true
      { e with col := e.col + (gap e).length } ('\n' :: (List.replicate k ' ' ++ r)) (by simp) (by simp) col (by omega)
    have hkind := plain_kind hp hr.1 (plain_written (n := n) hp hr.1 true true { e with col := e.col + (gap e).length })
      (rest := '\n' :: (List.replicate k ' ' ++ r)) (by simp) (by simp) col
    obtain ⟨f, rfl⟩ : ∃ f, fuel = f + 2 := ⟨fuel - 2, by simp at h2; omega⟩
    rw [plain_end_line _ f s col' k (nextLine_dark hk) (by
      rcases hk.outside with h | ⟨_, h⟩ | ⟨h, h'⟩
      · exact .inl (by omega)
      · exact .inr (.inl h)
      · exact .inr (.inr ⟨h, documentLine_marker h'⟩))] at h3
    rw [List.cons_append]
    refine (Leads.step (fetch_flow (hv.append _) hcol (.inl hkind) is al T h3) (by simp) (by simp; omega)).trans ?_
    exact Leads.line rfl (savedKey_old al T col (by decide)) (Nat.le_refl _) i is _
  | single =>
    obtain ⟨_, ha⟩ := selected_single hst hr
    simp only [writeText, writeSingle, writeIndicator_need, writeIndicator_plain]
    refine ⟨'\'' :: ((singleBody true n true true false false ⟨e.col + (gap e).length + ['\''].length, false, false⟩ s).1 ++ ['\'']), _,
      Prod.ext (by simp) rfl, .inl rfl, vis_single _, ?_⟩
    intro k r hk col al is T hcol
    rw [hind k _ rfl]
    obtain ⟨col', h1, h2⟩ := single_text_read i Nat.one_pos hnp ha true ⟨e.col + (gap e).length + ['\''].length, false, false⟩ rfl
      ('\n' :: (List.replicate k ' ' ++ r)) (by simp) col (by omega)
    simp only [List.append_assoc, List.singleton_append, List.cons_append, List.nil_append, Bool.not_false] at h2 ⊢
    refine (Leads.step (fetch_flow (vis_single _) hcol (.inr (.inl (kind_single ..))) is al T h2) (by simp) (by simp; omega)).trans ?_
    refine Leads.line (toNext_line ..) ?_ (by simp; omega) i is _
    rw [show ∀ x y : YText, '\'' :: (x ++ '\'' :: '\n' :: y) = ('\'' :: (x ++ ['\''])) ++ '\n' :: y by intros; simp]
    exact savedKey_old al T col (by decide)
  | double =>
    simp only [writeText, writeDouble, writeIndicator_need, writeIndicator_plain]
    refine ⟨'"' :: ((doubleBody n true true false ⟨e.col + (gap e).length + ['"'].length, false, false⟩ s).1 ++ ['"']), _,
      Prod.ext (by simp) rfl, .inl rfl, vis_double _, ?_⟩
    intro k r hk col al is T hcol
    rw [hind k _ rfl]
    obtain ⟨col', h1, h2⟩ := double_text_read i Nat.one_pos hnp s true ⟨e.col + (gap e).length + ['"'].length, false, false⟩ rfl
      ('\n' :: (List.replicate k ' ' ++ r)) col (by omega)
    simp only [List.append_assoc, List.singleton_append, List.cons_append, List.nil_append, Bool.not_false] at h2 ⊢
    refine (Leads.step (fetch_flow (vis_double _) hcol (.inr (.inr (kind_double ..))) is al T h2) (by simp) (by simp; omega)).trans ?_
    refine Leads.line (toNext_line ..) ?_ (by simp; omega) i is _
    rw [show ∀ x y : YText, '"' :: (x ++ '"' :: '\n' :: y) = ('"' :: (x ++ ['"'])) ++ '\n' :: y by intros; simp]
    exact savedKey_old al T col (by decide)
  | literal =>
    obtain ⟨_, hne, hp⟩ := selected_literal hst
    obtain ⟨hb1, hb2⟩ := literalBody_blk n s hp true ⟨0, true, true⟩ rfl (fun _ => ⟨rfl, rfl⟩)
    obtain ⟨p1, p2, p3⟩ := hb2 hne
    have hpe : PosEnd (literalBody n true ⟨0, true, true⟩ s).2 ∧
        eol (literalBody n true ⟨0, true, true⟩ s).2 = if s.getLast? = some '\n' then [] else ['\n'] := by
      by_cases h : s.getLast? = some '\n'
      · rw [if_pos h]
        exact ⟨.inr ⟨(p2 h).2, (p2 h).1, p1⟩, by rw [eol, (p2 h).2]; rfl⟩
      · rw [if_neg h]
        exact ⟨.inl (p3 hne h), by rw [eol, p3 hne h]; rfl⟩
    simp only [writeText, writeLiteral, writeIndicator_need]
    refine ⟨'|' :: (blockHints s ++ '\n' :: (literalBody n true ⟨0, true, true⟩ s).1), _, Prod.ext (by simp) rfl, hpe.1, vis_literal _, ?_⟩
    intro k r hk col al is T hcol
    have hkn : k < n := by
      rcases hk.outside with h | ⟨h, _⟩ | ⟨h, _⟩ <;> omega
    have h := literal_read hl hn hkn (nextLine_dark hk) hp hne
    rw [writeIndent_end hpe.1, hpe.2, hb1]
    have hsc : scanScalar i col ('|' :: (blockHints s ++ '\n' :: (blk n true s ++ (if s.getLast? = some '\n' then [] else ['\n']) ++
        (List.replicate k ' ' ++ r)))) = some ⟨.literal, s, k, r, false⟩ := by
      unfold scanScalar
      simp only [kind_literal, List.drop_succ_cons, List.drop_zero, h]
      rfl
    simp only [List.append_assoc, List.singleton_append, List.cons_append, List.nil_append] at hsc ⊢
    exact Leads.step (fetch_block (vis_literal _) hcol (kind_literal ..) is al T hsc) (by simp) (by simp; omega)

end Spiff
