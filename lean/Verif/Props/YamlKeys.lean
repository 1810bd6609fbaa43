import Verif.Props.YamlScan
/-
C86: the tokens of keys, indicators and empty collections.
-/
namespace Spiff
open Spec

/-! ### the text of a key is one short line -/

/-- no line break, at most `n` characters -/
def Short (n : Nat) (t : YText) : Prop := (∀ c ∈ t, isBreakC c = false) ∧ t.length ≤ n

theorem single_short (q : Bool) (n : Nat) : ∀ (s : YText), (∀ c ∈ s, AsciiC c) → ∀ (first sp : Bool) (e : EPos),
    Short (2 * s.length) (singleBody q n false first sp false e s).1 := by
  intro s
  induction s with
  | nil => intro _ first sp e; exact ⟨by simp [singleBody], by simp [singleBody]⟩
  | cons c r ih =>
    intro ha first sp e
    have hr : ∀ c ∈ r, AsciiC c := fun c h => ha c (List.mem_cons_of_mem _ h)
    have hc := ascii_not_break (ha c (by simp))
    rw [singleBody]
    by_cases h : c = ' '
    · subst h
      simp only [if_true, Bool.false_and, Bool.false_eq_true, if_false, pre]
      obtain ⟨h1, h2⟩ := ih hr false true { e with col := e.col + 1 }
      refine ⟨?_, by simp; omega⟩
      intro d hd
      rcases List.mem_append.1 hd with h | h
      · rw [List.mem_singleton.1 h]; decide
      · exact h1 d h
    · simp only [h, if_false, hc, Bool.false_eq_true, pre, List.nil_append]
      obtain ⟨h1, h2⟩ := ih hr false false { e with col := e.col + ((if (q && decide (c = '\'')) = true then ['\''] else []) ++ [c]).length, ind := false }
      refine ⟨?_, ?_⟩
      · intro d hd
        rcases List.mem_append.1 hd with h | h
        · rcases List.mem_append.1 h with h | h
          · split at h
            · rw [List.mem_singleton.1 h]; decide
            · cases h
          · rw [List.mem_singleton.1 h]; exact hc
        · exact h1 d h
      · have : ((if (q && decide (c = '\'')) = true then ['\''] else []) ++ [c]).length ≤ 2 := by split <;> simp
        rw [List.length_append, List.length_cons]
        omega

theorem hexUpper_break : ∀ d < 16, isBreakC (hexUpper d) = false := by decide

theorem hexText_short (v : Nat) : ∀ w, (∀ c ∈ hexText w v, isBreakC c = false) ∧ (hexText w v).length = w := by
  intro w
  induction w with
  | zero => exact ⟨by simp [hexText], rfl⟩
  | succ w ih =>
    refine ⟨?_, by rw [hexText, List.length_cons, ih.2]⟩
    intro c hc
    rw [hexText] at hc
    rcases List.mem_cons.1 hc with rfl | h
    · exact hexUpper_break _ (Nat.mod_lt _ (by decide))
    · exact ih.1 c h

theorem utf8Size_cases (c : Char) : c.utf8Size = if c.toNat ≤ 0x7F then 1 else if c.toNat ≤ 0x7FF then 2 else if c.toNat ≤ 0xFFFF then 3 else 4 := by
  unfold Char.utf8Size Char.toNat
  simp only [UInt32.le_iff_toNat_le]
  rfl

theorem escape_short (c : Char) : Short (4 * c.utf8Size) (escapeText c) := by
  have h1 : 1 ≤ c.utf8Size := by rw [utf8Size_cases]; split <;> (try split) <;> (try split) <;> omega
  unfold escapeText
  split
  · rename_i l hl
    have hb := (escapeLetter_read hl).2
    refine ⟨?_, by simp; omega⟩
    intro d hd
    simp only [List.mem_cons, List.not_mem_nil, or_false] at hd
    rcases hd with rfl | rfl
    · decide
    · exact hb
  · have hex : ∀ (x : Char) (w : Nat), isBreakC x = false → w + 2 ≤ 4 * c.utf8Size → Short (4 * c.utf8Size) ('\\' :: x :: hexText w c.toNat) := by
      intro x w hx hw
      obtain ⟨g1, g2⟩ := hexText_short c.toNat w
      refine ⟨?_, by simp only [List.length_cons, g2]; omega⟩
      intro d hd
      rcases List.mem_cons.1 hd with rfl | hd
      · decide
      · rcases List.mem_cons.1 hd with rfl | hd
        · exact hx
        · exact g1 d hd
    split
    · exact hex 'x' 2 (by decide) (by omega)
    · split
      · exact hex 'u' 4 (by decide) (by
          have : 2 ≤ c.utf8Size := by rw [utf8Size_cases]; split <;> (try split) <;> (try split) <;> omega
          omega)
      · exact hex 'U' 8 (by decide) (by
          have : 4 ≤ c.utf8Size := by rw [utf8Size_cases]; split <;> (try split) <;> (try split) <;> omega
          omega)

theorem byteLen_cons (c : Char) (r : YText) : byteLen (c :: r) = c.utf8Size + byteLen r := by simp [byteLen]

theorem double_short (n : Nat) : ∀ (s : YText) (first sp : Bool) (e : EPos), Short (4 * byteLen s) (doubleBody n false first sp e s).1 := by
  intro s
  induction s with
  | nil => intro first sp e; exact ⟨by simp [doubleBody], by simp [doubleBody]⟩
  | cons c r ih =>
    intro first sp e
    have h1 : 1 ≤ c.utf8Size := by rw [utf8Size_cases]; split <;> (try split) <;> (try split) <;> omega
    have happ : ∀ (a b : YText), Short (4 * c.utf8Size) a → Short (4 * byteLen r) b → Short (4 * byteLen (c :: r)) (a ++ b) := by
      intro a b ⟨a1, a2⟩ ⟨b1, b2⟩
      refine ⟨?_, by rw [List.length_append, byteLen_cons]; omega⟩
      intro d hd
      rcases List.mem_append.1 hd with h | h
      · exact a1 d h
      · exact b1 d h
    rw [doubleBody]
    by_cases he : escapedC c = true
    · rw [if_pos he]
      exact happ _ _ (escape_short c) (ih ..)
    · rw [if_neg he]
      have hone : Short (4 * c.utf8Size) [c] := by
        refine ⟨?_, by simp; omega⟩
        intro d hd
        rw [List.mem_singleton.1 hd]
        exact ascii_not_break (unescaped (by simpa using he)).1
      by_cases h : c = ' '
      · subst h
        simp only [if_true, Bool.false_and, Bool.false_eq_true, if_false]
        exact happ _ _ hone (ih ..)
      · rw [if_neg h]
        exact happ _ _ hone (ih ..)

theorem length_byteLen : ∀ s : YText, s.length ≤ byteLen s := by
  intro s
  induction s with
  | nil => simp [byteLen]
  | cons c r ih =>
    have h1 : 1 ≤ c.utf8Size := by rw [utf8Size_cases]; split <;> (try split) <;> (try split) <;> omega
    rw [byteLen_cons, List.length_cons]
    omega

/-! ### levels -/

/-- the levels behind the begin of a collection in column `i`, on level `j` -/
def openIs (i : Nat) (j : Int) (js : List Int) : List Int := if j < i then j :: js else js
/-- the tokens behind its begin -/
def openTs (i : Nat) (j : Int) (T : List YTok) (t : YTok) : List YTok := if j < i then T ++ [t] else T

theorem openIs_same (i : Nat) (js : List Int) : openIs i i js = js := by simp [openIs]
theorem openTs_same (i : Nat) (T : List YTok) (t : YTok) : openTs i i T t = T := by simp [openTs]

theorem insertTok_at (T r : List YTok) (t : YTok) : insertTok T.length t (T ++ r) = T ++ t :: r := by simp [insertTok]

theorem rollIndent_open {i : Nat} {j : Int} (hj : j ≤ i) (text : YText) (col : Nat) (js : List Int) (al : Bool) (ks : List (Option SimpleKey)) (T : List YTok)
    (t : YTok) : rollIndent i T.length t ⟨text, col, j, js, 0, al, ks, T⟩ = ⟨text, col, i, openIs i j js, 0, al, ks, openTs i j T t⟩ := by
  unfold rollIndent openIs openTs
  by_cases h : j < i
  · have := insertTok_at T [] t
    rw [List.append_nil] at this
    simp [h, this]
  · have : j = i := by omega
    subst this
    simp

/-- a blank follows -/
def Blank1 (t : YText) : Prop := t.head? = some ' ' ∨ t.head? = some '\n'

theorem blank_followed {t : YText} (h : Blank1 t) : followedBy t = true ∧ ∀ c r, t = c :: r → c ≠ '-' ∧ c ≠ '.' := by
  cases t with
  | nil => rcases h with h | h <;> cases h
  | cons c r =>
    rcases h with h | h <;> cases h
    · exact ⟨(by decide : isBlankzC ' ' = true), by intro c r h; cases h; decide⟩
    · exact ⟨(by decide : isBlankzC '\n' = true), by intro c r h; cases h; decide⟩

theorem kind_entry (col : Nat) {t : YText} (h : Blank1 t) : tokenKind col ('-' :: t) = .blockEntry := by
  obtain ⟨h1, h2⟩ := blank_followed h
  have hm : docMarker ('-' :: t) = false := by
    cases hd : docMarker ('-' :: t) with
    | false => rfl
    | true =>
      obtain ⟨m, r, hm, he, _⟩ := docMarker_cases hd
      cases he
      exact absurd rfl (h2 _ _ rfl).1
  simp [tokenKind, isZeroC, hm, h1]

theorem kind_key (col : Nat) {t : YText} (h : Blank1 t) : tokenKind col ('?' :: t) = .key := by
  simp [tokenKind, isZeroC, (blank_followed h).1]

theorem kind_value (col : Nat) {t : YText} (h : Blank1 t) : tokenKind col (':' :: t) = .value := by
  simp [tokenKind, isZeroC, (blank_followed h).1]

theorem vis_entry (t : YText) : Vis ('-' :: t) := ⟨_, _, rfl, by unfold AsciiC; decide, by decide, by decide⟩
theorem vis_key (t : YText) : Vis ('?' :: t) := ⟨_, _, rfl, by unfold AsciiC; decide, by decide, by decide⟩
theorem vis_value (t : YText) : Vis (':' :: t) := ⟨_, _, rfl, by unfold AsciiC; decide, by decide, by decide⟩
theorem vis_seq (t : YText) : Vis ('[' :: t) := ⟨_, _, rfl, by unfold AsciiC; decide, by decide, by decide⟩
theorem vis_seqEnd (t : YText) : Vis (']' :: t) := ⟨_, _, rfl, by unfold AsciiC; decide, by decide, by decide⟩
theorem vis_map (t : YText) : Vis ('{' :: t) := ⟨_, _, rfl, by unfold AsciiC; decide, by decide, by decide⟩
theorem vis_mapEnd (t : YText) : Vis ('}' :: t) := ⟨_, _, rfl, by unfold AsciiC; decide, by decide, by decide⟩

/-- an element begins -/
theorem entry_leads {i : Nat} {j : Int} (hj : j ≤ i) {t : YText} (ht : Blank1 t) (js : List Int) (T : List YTok) :
    Leads ⟨'-' :: t, i, j, js, 0, true, [none], T⟩
      ⟨t, i + 1, i, openIs i j js, 0, true, [none], openTs i j T .blockSeqStart ++ [.blockEntry]⟩ := by
  refine Leads.step ?_ (by simp) (by simp)
  unfold fetchNext
  rw [settle_at (vis_entry t) hj, Option.bind_some]
  unfold dispatch
  simp [kind_entry i ht, fetchBlockEntry, rollIndent_open hj, removeKey, takeTok]

/-- a key which is not simple begins -/
theorem question_leads {i : Nat} {j : Int} (hj : j ≤ i) {t : YText} (ht : Blank1 t) (js : List Int) (T : List YTok) :
    Leads ⟨'?' :: t, i, j, js, 0, true, [none], T⟩
      ⟨t, i + 1, i, openIs i j js, 0, true, [none], openTs i j T .blockMapStart ++ [.key]⟩ := by
  refine Leads.step ?_ (by simp) (by simp)
  unfold fetchNext
  rw [settle_at (vis_key t) hj, Option.bind_some]
  unfold dispatch
  simp [kind_key i ht, fetchKey, rollIndent_open hj, removeKey, takeTok]

/-- its value begins -/
theorem value_leads {i : Nat} {t : YText} (ht : Blank1 t) (js : List Int) (T : List YTok) :
    Leads ⟨':' :: t, i, i, js, 0, true, [none], T⟩ ⟨t, i + 1, i, js, 0, true, [none], T ++ [.value]⟩ := by
  refine Leads.step ?_ (by simp) (by simp)
  unfold fetchNext
  rw [settle_at (vis_value t) (Int.le_refl _), Option.bind_some]
  unfold dispatch
  simp [kind_value i ht, fetchValue, rollIndent_open (Int.le_refl _), takeTok, openIs_same, openTs_same]

/-! ### simple keys -/

theorem short_fresh {body r : YText} (h : Short 1024 body) (req : Bool) (n col : Nat) : keyStale ⟨req, n, col, body ++ r⟩ r = false := by
  unfold keyStale
  simp only [List.length_append, Nat.add_sub_cancel, List.take_left']
  have h1 : body.any isBreakC = false := by
    rw [List.any_eq_false]
    intro c hc
    rw [h.1 c hc]
    simp
  rw [h1, Bool.false_or, decide_eq_false_iff_not]
  have := h.2
  omega

/-- a simple key, and the colon behind it -/
theorem fetch_key {i : Nat} {j : Int} (hj : j ≤ i) {body r : YText} (hv : Vis body) (hs : Short 1024 body) (hr : Blank1 r)
    (hk : tokenKind i (body ++ ':' :: r) = .plain ∨ tokenKind i (body ++ ':' :: r) = .single ∨ tokenKind i (body ++ ':' :: r) = .double)
    {st : YStyle} {s : YText} {col' : Nat} (ht : scanScalar j i (body ++ ':' :: r) = some ⟨st, s, col', ':' :: r, false⟩) (hc : i ≤ col')
    (js : List Int) (T : List YTok) :
    Leads ⟨body ++ ':' :: r, i, j, js, 0, true, [none], T⟩
      ⟨r, col' + 1, i, openIs i j js, 0, false, [none], openTs i j T .blockMapStart ++ [.key, .scalar st s, .value]⟩ := by
  have hpos : 0 < body.length := by obtain ⟨c, u, rfl, _⟩ := hv; simp
  refine Leads.trans (b := ⟨':' :: r, col', j, js, 0, false, [some ⟨decide (j = i), T.length, i, body ++ ':' :: r⟩], T ++ [.scalar st s]⟩)
    (Leads.step ?_ (by simp) (by simp; omega)) (Leads.step ?_ (by simp) (by simp))
  · unfold fetchNext
    rw [settle_at (hv.append _) hj, Option.bind_some]
    have : dispatch ⟨body ++ ':' :: r, i, j, js, 0, true, [none], T⟩ = fetchFlowScalar ⟨body ++ ':' :: r, i, j, js, 0, true, [none], T⟩ := by
      unfold dispatch
      rcases hk with h | h | h <;> simp [h]
    rw [this, fetchFlowScalar]
    simp [saveKey, removeKey, scanTok, ht]
  · unfold fetchNext settle
    simp only [toNext_vis 0 false col' (vis_value r), staleKeys, short_fresh hs, Bool.false_eq_true, if_false, Option.map_some, Option.bind_some]
    have hun : unrollIndent (col' : Int) ⟨':' :: r, col', j, js, 0, false, [some ⟨decide (j = i), T.length, i, body ++ ':' :: r⟩], T ++ [.scalar st s]⟩ =
        ⟨':' :: r, col', j, js, 0, false, [some ⟨decide (j = i), T.length, i, body ++ ':' :: r⟩], T ++ [.scalar st s]⟩ := by
      simp [unrollIndent, unroll_stay (show j ≤ (col' : Int) by omega)]
    rw [hun]
    unfold dispatch
    simp only [kind_value col' hr, gt_iff_lt, Nat.lt_irrefl, if_false, fetchValue, insertTok_at]
    unfold rollIndent
    by_cases h : j < i
    · simp [h, takeTok, openIs, openTs, insertTok_at]
    · have : j = i := by omega
      subst this
      simp [takeTok, openIs, openTs]

theorem key_leads {i : Nat} {j : Int} (hl : -1 ≤ j) (hj : j ≤ i) (s : YText) (req : YStyle) (hr : Asked s req) (hs : checkSimpleKey s = true) :
    ∃ body e', writeText true (i + 2) ⟨i, true, true⟩ (selectStyle true s req) s = (body, e') ∧ e'.ind = false ∧ e'.ws = false ∧ Vis body ∧
    ∀ r : YText, Blank1 r → ∃ col', i ≤ col' ∧ ∀ (js : List Int) (T : List YTok),
    Leads ⟨body ++ ':' :: r, i, j, js, 0, true, [none], T⟩
      ⟨r, col' + 1, i, openIs i j js, 0, false, [none], openTs i j T .blockMapStart ++ [.key, .scalar (selectStyle true s req) s, .value]⟩ := by
  have hlen : byteLen s ≤ 128 := by
    unfold checkSimpleKey at hs
    simp only [Bool.and_eq_true, decide_eq_true_eq] at hs
    exact hs.2
  have hl2 := length_byteLen s
  have hgap : gap ⟨i, true, true⟩ = [] := rfl
  cases hst : selectStyle true s req with
  | plain =>
    obtain ⟨rfl, hp⟩ := selected_plain _ _ _ hst
    have hw := plain_written (n := i + 2) hp hr.1 false true ⟨i + 0, true, true⟩
    have hv := plain_first hp hr.1 hw
    obtain ⟨sh1, sh2⟩ := single_short false (i + 2) s hp.printable true false ⟨i + 0, true, true⟩
    refine ⟨_, _, Prod.ext (writePlain_text (i + 2) false ⟨i, true, true⟩ s) rfl, rfl, rfl, hv, ?_⟩
    intro r hb
    obtain ⟨col', fuel, h1, h1', h2, h3⟩ := plain_text_read (n := i + 2) (m := max i (j + 1).toNat) hl (by omega) (by omega) (by omega) hp hr.1 false true
      ⟨i + 0, true, true⟩ (':' :: r) (by simp) (by simp) i (by omega)
    obtain ⟨f, rfl⟩ : ∃ f, fuel = f + 1 := ⟨fuel - 1, by omega⟩
    rw [plain_end_colon _ f s col' (blank_followed hb).1] at h3
    have hkind := plain_kind hp hr.1 hw (rest := ':' :: r) (by simp) (by simp) i
    exact ⟨col', by omega, fun js T => fetch_key hj hv ⟨sh1, by omega⟩ hb (.inl hkind) h3 (by show i ≤ col'; omega) js T⟩
  | single =>
    obtain ⟨_, ha⟩ := selected_single hst hr
    obtain ⟨sh1, sh2⟩ := single_short true (i + 2) s ha true false ⟨i + 0 + ['\''].length, false, false⟩
    simp only [writeText, writeSingle, writeIndicator_need, writeIndicator_plain, hgap]
    refine ⟨'\'' :: ((singleBody true (i + 2) false true false false ⟨i + 0 + ['\''].length, false, false⟩ s).1 ++ ['\'']), _,
      Prod.ext (by simp) rfl, rfl, rfl, vis_single _, ?_⟩
    intro r hb
    obtain ⟨col', h1, h2⟩ := single_text_read j (n := i + 2) (Nat.succ_pos i) (by omega) ha false ⟨i + 0 + ['\''].length, false, false⟩ rfl (':' :: r) (by simp) i
      (Nat.le_refl _)
    rw [show ∀ x : YText, '\'' :: (x ++ '\'' :: ':' :: r) = '\'' :: (x ++ ['\'']) ++ ':' :: r by intros; simp] at h2
    refine ⟨col', by omega, fun js T => fetch_key hj (vis_single _) ⟨?_, ?_⟩ hb (.inr (.inl (kind_single ..))) h2 (by omega) js T⟩
    · intro c hc
      rcases List.mem_cons.1 hc with rfl | hc
      · decide
      · rcases List.mem_append.1 hc with hc | hc
        · exact sh1 c hc
        · rw [List.mem_singleton.1 hc]; decide
    · rw [List.length_cons, List.length_append]
      simp only [List.length_singleton] at sh2 ⊢
      omega
  | double =>
    obtain ⟨sh1, sh2⟩ := double_short (i + 2) s true false ⟨i + 0 + ['"'].length, false, false⟩
    simp only [writeText, writeDouble, writeIndicator_need, writeIndicator_plain, hgap]
    refine ⟨'"' :: ((doubleBody (i + 2) false true false ⟨i + 0 + ['"'].length, false, false⟩ s).1 ++ ['"']), _,
      Prod.ext (by simp) rfl, rfl, rfl, vis_double _, ?_⟩
    intro r hb
    obtain ⟨col', h1, h2⟩ := double_text_read j (n := i + 2) (Nat.succ_pos i) (by omega) s false ⟨i + 0 + ['"'].length, false, false⟩ rfl (':' :: r) i
      (Nat.le_refl _)
    rw [show ∀ x : YText, '"' :: (x ++ '"' :: ':' :: r) = '"' :: (x ++ ['"']) ++ ':' :: r by intros; simp] at h2
    refine ⟨col', by omega, fun js T => fetch_key hj (vis_double _) ⟨?_, ?_⟩ hb (.inr (.inr (kind_double ..))) h2 (by omega) js T⟩
    · intro c hc
      rcases List.mem_cons.1 hc with rfl | hc
      · decide
      · rcases List.mem_append.1 hc with hc | hc
        · exact sh1 c hc
        · rw [List.mem_singleton.1 hc]; decide
    · rw [List.length_cons, List.length_append]
      simp only [List.length_singleton] at sh2 ⊢
      omega
  | literal => exact absurd (selected_literal hst).1 (by simp)

/-! ### empty collections -/

theorem empty_leads {o c : Char} {ta tb : YTok} (hoc : (o = '[' ∧ c = ']' ∧ ta = .flowSeqStart ∧ tb = .flowSeqEnd) ∨
      (o = '{' ∧ c = '}' ∧ ta = .flowMapStart ∧ tb = .flowMapEnd)) {i : Int} {col : Nat} (hcol : i < col) {e : EPos} (he : e.ind = false) (k : Nat) (r : YText)
    (al : Bool) (is : List Int) (T : List YTok) :
    Leads ⟨o :: c :: ((writeIndent k e).1 ++ r), col, i, is, 0, al, [none], T⟩ ⟨r, k, i, is, 0, true, [none], T ++ [ta, tb]⟩ := by
  have hw : (writeIndent k e).1 ++ r = '\n' :: (List.replicate k ' ' ++ r) := by rw [writeIndent_end (.inl he), eol, he]; rfl
  rw [hw]
  generalize hu : '\n' :: (List.replicate k ' ' ++ r) = u
  have hvo : Vis (o :: c :: u) := by
    rcases hoc with ⟨rfl, _⟩ | ⟨rfl, _⟩
    · exact vis_seq _
    · exact vis_map _
  have hvc : Vis (c :: u) := by
    rcases hoc with ⟨_, rfl, _⟩ | ⟨_, rfl, _⟩
    · exact vis_seqEnd _
    · exact vis_mapEnd _
  refine Leads.trans (b := ⟨c :: u, col + 1, i, is, 1, true, [none, savedKey al T col (o :: c :: u)], T ++ [ta]⟩)
    (Leads.step ?_ (by rcases hoc with ⟨_, _, rfl, _⟩ | ⟨_, _, rfl, _⟩ <;> simp) (by simp)) ?_
  · unfold fetchNext
    rw [settle_at hvo (by omega), Option.bind_some]
    have : dispatch ⟨o :: c :: u, col, i, is, 0, al, [none], T⟩ = fetchFlowStart ta ⟨o :: c :: u, col, i, is, 0, al, [none], T⟩ := by
      unfold dispatch
      rcases hoc with ⟨rfl, _, rfl, _⟩ | ⟨rfl, _, rfl, _⟩ <;> simp [tokenKind, isZeroC]
    rw [this, fetchFlowStart, saveKey_free (by omega)]
    simp [takeTok]
  · refine Leads.trans (b := ⟨u, col + 2, i, is, 0, false, [savedKey al T col (o :: c :: u)], T ++ [ta, tb]⟩)
      (Leads.step ?_ (by rcases hoc with ⟨_, _, _, rfl⟩ | ⟨_, _, _, rfl⟩ <;> simp) (by simp)) ?_
    · have hst : staleKeys (c :: u) [none, savedKey al T col (o :: c :: u)] = some [none, savedKey al T col (o :: c :: u)] := by
        unfold savedKey
        cases al with
        | false => rfl
        | true =>
          have : keyStale ⟨false, T.length, col, o :: c :: u⟩ (c :: u) = false := by
            refine short_fresh (body := [o]) ⟨?_, by simp⟩ false _ _
            intro d hd
            rw [List.mem_singleton.1 hd]
            rcases hoc with ⟨rfl, _⟩ | ⟨rfl, _⟩ <;> decide
          simp [staleKeys, this]
      unfold fetchNext settle
      simp only [toNext_vis 1 true (col + 1) hvc, hst, Option.map_some, Option.bind_some, unrollIndent, gt_iff_lt, Nat.one_pos, if_true]
      have : dispatch ⟨c :: u, col + 1, i, is, 1, true, [none, savedKey al T col (o :: c :: u)], T ++ [ta]⟩ =
          fetchFlowEnd tb ⟨c :: u, col + 1, i, is, 1, true, [none, savedKey al T col (o :: c :: u)], T ++ [ta]⟩ := by
        unfold dispatch flowKind
        rcases hoc with ⟨_, rfl, _, rfl⟩ | ⟨_, rfl, _, rfl⟩ <;> simp [tokenKind, isZeroC]
      rw [this]
      simp [fetchFlowEnd, removeKey, takeTok]
    · subst hu
      refine Leads.line (toNext_line ..) ?_ (by simp; omega) i is _
      exact savedKey_old (a := [o, c]) al T col (by decide)

/-! ### the next line -/

/-- the next line behind a node of level `i`: it belongs to an enclosing collection, or there is none, or a document begins or ends -/
def Next (i : Int) (k : Nat) (r : YText) : Prop := (Vis r ∧ (k : Int) ≤ i) ∨ (k = 0 ∧ r = []) ∨ (k = 0 ∧ DocumentLine r)

theorem Next.nextLine {i : Int} {k : Nat} {r : YText} (h : Next i k r) : NextLine i k r := by
  refine ⟨?_, ?_⟩
  · intro c r' hr
    rcases h with ⟨⟨x, y, hx, ha, hs, _⟩, _⟩ | ⟨_, h⟩ | ⟨_, m, u, hm, h, _⟩
    · rw [hr] at hx
      cases hx
      refine ⟨hs, ?_, ?_, ?_⟩
      · rintro rfl; exact absurd ha (by unfold AsciiC; decide)
      · rintro rfl; exact absurd ha (by unfold AsciiC; decide)
      · intro h
        have := ascii_not_break ha
        simp only [List.mem_cons, List.not_mem_nil, or_false] at h
        rcases h with rfl | rfl | rfl | rfl | rfl <;> revert this <;> decide
    · rw [hr] at h; cases h
    · rw [hr] at h
      rcases hm with rfl | rfl <;> cases h <;> decide
  · rcases h with ⟨_, h⟩ | ⟨h, h'⟩ | ⟨h, h'⟩
    · exact .inl h
    · exact .inr (.inl ⟨h, h'⟩)
    · exact .inr (.inr ⟨h, h'⟩)

theorem Next.mono {i i' : Int} {k : Nat} {r : YText} (h : Next i k r) (hi : i ≤ i') : Next i' k r := by
  rcases h with ⟨h, h'⟩ | h | h
  · exact .inl ⟨h, by omega⟩
  · exact .inr (.inl h)
  · exact .inr (.inr h)

theorem Next.stop {i : Int} {k : Nat} {r : YText} (h : Next i k r) : toNext 0 true false k r = (true, k, r) := by
  rcases h with ⟨h, _⟩ | ⟨_, rfl⟩ | ⟨_, m, u, hm, rfl, _⟩
  · exact toNext_vis _ _ _ h
  · rfl
  · rcases hm with rfl | rfl
    · exact toNext_vis _ _ _ ⟨'-', _, rfl, by unfold AsciiC; decide, by decide, by decide⟩
    · exact toNext_vis _ _ _ ⟨'.', _, rfl, by unfold AsciiC; decide, by decide, by decide⟩

theorem document_kind {r : YText} (h : DocumentLine r) : tokenKind 0 r = .documentStart ∨ tokenKind 0 r = .documentEnd := by
  have hm := documentLine_marker h
  obtain ⟨m, u, hm', rfl, _⟩ := h
  rcases hm' with rfl | rfl
  · left
    have h : "---".toList ++ u = '-' :: '-' :: '-' :: u := rfl
    rw [h] at hm ⊢
    simp [tokenKind, isZeroC, hm]
  · right
    have h : "...".toList ++ u = '.' :: '.' :: '.' :: u := rfl
    rw [h] at hm ⊢
    simp [tokenKind, isZeroC, hm]

theorem settle_stop {t : YText} {k : Nat} (h : toNext 0 true false k t = (true, k, t)) (i : Int) (is : List Int) (T : List YTok) :
    settle ⟨t, k, i, is, 0, true, [none], T⟩ = some (unrollIndent k ⟨t, k, i, is, 0, true, [none], T⟩) := by
  unfold settle
  simp only [h, staleKeys, Option.map_some]

theorem unroll_blockEnd {col i : Int} {i' : Int} (hi : col < i') (t : YText) (k : Nat) (is : List Int) (al : Bool) (ks : List (Option SimpleKey)) (T : List YTok) :
    unrollIndent col ⟨t, k, i', i :: is, 0, al, ks, T⟩ = unrollIndent col ⟨t, k, i, is, 0, al, ks, T ++ [.blockEnd]⟩ := by
  unfold unrollIndent
  simp only [gt_iff_lt, Nat.lt_irrefl, if_false, unroll_next hi]
  simp [List.replicate_succ]

theorem blockEnd_leads {i : Int} {i' : Nat} (hi : i < i') (hl : -1 ≤ i) {k : Nat} {r : YText} (h : Next i k r) (is : List Int) (T : List YTok) :
    Leads ⟨r, k, i', i :: is, 0, true, [none], T⟩ ⟨r, k, i, is, 0, true, [none], T ++ [.blockEnd]⟩ := by
  refine Leads.same ?_ (Nat.le_refl _)
  unfold fetchNext
  rw [settle_stop h.stop, settle_stop h.stop]
  by_cases hk : (k : Int) < i'
  · rw [unroll_blockEnd hk]
  · have hk0 : k = 0 := by rcases h with ⟨_, h⟩ | ⟨h, _⟩ | ⟨h, _⟩ <;> omega
    subst hk0
    have hi0 : i = -1 := by omega
    have hi1 : i' = 0 := by omega
    subst hi0 hi1
    have e1 : unrollIndent ((0 : Nat) : Int) ⟨r, 0, ((0 : Nat) : Int), -1 :: is, 0, true, [none], T⟩ = ⟨r, 0, 0, -1 :: is, 0, true, [none], T⟩ := by
      simp [unrollIndent, unroll_stay (Int.le_refl 0)]
    have e2 : unrollIndent ((0 : Nat) : Int) ⟨r, 0, -1, is, 0, true, [none], T ++ [.blockEnd]⟩ = ⟨r, 0, -1, is, 0, true, [none], T ++ [.blockEnd]⟩ := by
      simp [unrollIndent, unroll_stay (show (-1 : Int) ≤ 0 by decide)]
    rw [e1, e2, Option.bind_some, Option.bind_some]
    rcases h with ⟨_, h⟩ | ⟨_, rfl⟩ | ⟨_, h⟩
    · exact absurd h (by decide)
    · have hk : tokenKind 0 [] = .streamEnd := rfl
      simp only [dispatch, if_true, hk, fetchStreamEnd, unroll_blockEnd (show (-1 : Int) < 0 by decide)]
    · rcases document_kind h with hk | hk
      · simp only [dispatch, if_true, hk, fetchDocument, unroll_blockEnd (show (-1 : Int) < 0 by decide)]
      · simp only [dispatch, if_true, hk, fetchDocument, unroll_blockEnd (show (-1 : Int) < 0 by decide)]

end Spiff
