import Verif.Props.YamlOut
import Verif.Props.YamlRead
import Verif.Props.MapFns
/-
C74: written documents are read as the same documents.
-/
namespace Spiff
open Spec
variable {E : Type}

/-! ### styles -/

/-- a text requested plain is written plain, if possible -/
theorem select_plain (s : List Char) (h : PlainText s) : selectStyle false s .plain = .plain := by
  unfold selectStyle
  simp [(plain_text_iff s).2 h]

/-- a text written plain was requested to be plain, and can be written plain -/
theorem selected_plain (k : Bool) (s : List Char) (st : YStyle) (h : selectStyle k s st = .plain) : st = .plain ∧ PlainText s := by
  unfold selectStyle at h
  rw [← plain_text_iff]
  cases st <;> cases h1 : (analyzeScalar s).multiline <;> cases h2 : (analyzeScalar s).plain <;> cases h3 : (analyzeScalar s).single <;>
    cases h4 : (analyzeScalar s).block <;> cases k <;> by_cases h5 : s = [] <;> simp_all

theorem resolve_str_tag (X : YLib) (s : List Char) (h : (resolveInterface X { value := s }).1 = .str) :
    (resolveInterface X { value := s }).2 = .str (String.ofList s) := by
  have ht := resolveText_plain X s
  unfold plain at ht
  have hN : ∀ sg, (resolveNumber X sg { value := s }).1 = .str → (resolveNumber X sg { value := s }).2 = .str (String.ofList s) := by
    intro sg h
    unfold resolveNumber at h ⊢
    split
    · simp_all
    · split
      · simp_all
      · split
        · rw [ht]
        · split
          · simp_all
          · rw [ht]
  have hW : (resolveWord X { value := s }).1 = .str → (resolveWord X { value := s }).2 = .str (String.ofList s) := by
    intro h
    unfold resolveWord at h ⊢
    split
    · simp_all
    · rw [ht]
  cases s with
  | nil => simp [resolveInterface] at h
  | cons c r =>
    rw [show ({ value := c :: r } : YScalar) = plain (c :: r) from rfl] at *
    rw [resolve_plain_cons] at h ⊢
    split at h
    · rename_i hc; rw [if_pos hc]; exact hN _ h
    · rename_i hc; rw [if_neg hc]
      split at h
      · rename_i hc; rw [if_pos hc]; exact hN _ h
      · rename_i hc; rw [if_neg hc]
        split at h
        · rename_i hc; rw [if_pos hc]
          split at h
          · cases h
          · rename_i hc; rw [if_neg hc]; exact hW h
        · rename_i hc; rw [if_neg hc]
          split at h
          · rename_i hc; rw [if_pos hc]
            split at h
            · cases h
            · rw [ht]
          · rename_i hc; rw [if_neg hc]
            split at h
            · rename_i hc; rw [if_pos hc]; exact hW h
            · rename_i hc; rw [if_neg hc, ht]

/-- a text is read as this text, whatever style is selected -/
theorem read_text (X : YLib) (k : Bool) (s : List Char) :
    (resolveInterface X { value := s, implicit := decide (selectStyle k s (stringStyle X s) = .plain) }).2 = .str (String.ofList s) := by
  by_cases h : selectStyle k s (stringStyle X s) = .plain
  · have h1 := (selected_plain _ _ _ h).1
    rw [decide_eq_true h]
    apply resolve_str_tag
    unfold stringStyle at h1
    split at h1
    · cases h1
    · rename_i h2; exact Classical.byContradiction h2
  · rw [decide_eq_false h]
    exact quoted_scalar X s

/-! ### numbers -/

theorem numberShape_plain (s : List Char) (h : NumberShape s) : PlainText s := by
  obtain ⟨sg, d, r, rfl, hsg, hd, hr⟩ := h
  have hch : ∀ c ∈ "0123456789+-.e".toList, AsciiC c ∧ c ≠ ' ' ∧ c ≠ ':' ∧ c ≠ '#' := by
    simp only [AsciiC]; decide
  have hdc : d ∈ "0123456789".toList := by
    simp only [char_le_iff] at hd
    rw [char_eq_ofNat d]
    have h1 : (48 : Nat) ≤ d.toNat := hd.1
    have h2 : d.toNat ≤ 57 := hd.2
    have : d.toNat = 48 ∨ d.toNat = 49 ∨ d.toNat = 50 ∨ d.toNat = 51 ∨ d.toNat = 52 ∨ d.toNat = 53 ∨ d.toNat = 54 ∨ d.toNat = 55 ∨ d.toNat = 56 ∨
        d.toNat = 57 := by omega
    rcases this with h | h | h | h | h | h | h | h | h | h <;> rw [h] <;> decide
  have hds : ∀ c ∈ "0123456789".toList, c ∈ "0123456789+-.e".toList := by decide
  have hall : ∀ c ∈ sg ++ d :: r, c ∈ "0123456789+-.e".toList := by
    intro c hc
    rcases List.mem_append.1 hc with hc | hc
    · rcases hsg with rfl | rfl
      · cases hc
      · simp only [List.mem_singleton] at hc; subst hc; decide
    · rcases List.mem_cons.1 hc with rfl | hc
      · exact hds _ hdc
      · exact hr c hc
  have hno : ∀ c ∈ sg ++ d :: r, AsciiC c ∧ c ≠ ' ' ∧ c ≠ ':' ∧ c ≠ '#' := fun c hc => hch c (hall c hc)
  have hdn : ∀ c ∈ "0123456789".toList, c ≠ '-' ∧ c ≠ '?' ∧ c ≠ ':' ∧ c ≠ ' ' ∧ c ≠ '.' ∧
      c ∉ ['#', ',', '[', ']', '{', '}', '&', '*', '!', '|', '>', '\'', '"', '%', '@', '`'] := by decide
  have hd' := hdn d hdc
  refine ⟨fun c hc => (hno c hc).1, ?_, ?_, ?_, ?_, ?_, ?_, ?_, ?_⟩
  · intro q hq; exact (hno ' ' (by rw [hq]; simp)).2.1 rfl
  · intro q hq; exact (hno ' ' (by rw [hq]; simp)).2.1 rfl
  · intro a b hq; exact (hno ' ' (by rw [hq]; simp)).2.1 rfl
  · intro a b hq; exact (hno ' ' (by rw [hq]; simp)).2.1 rfl
  · intro a hq; exact (hno ':' (by rw [hq]; simp)).2.2.1 rfl
  · intro c q hq
    rcases hsg with rfl | rfl
    · simp only [List.nil_append, List.cons.injEq] at hq; rw [← hq.1]; exact hd'.2.2.2.2.2
    · simp only [List.cons_append, List.nil_append, List.cons.injEq] at hq; rw [← hq.1]; decide
  · intro c q hq hc
    rcases hsg with rfl | rfl
    · simp only [List.nil_append, List.cons.injEq] at hq
      obtain ⟨rfl, rfl⟩ := hq
      rcases hc with h | h | h
      · exact absurd h hd'.1
      · exact absurd h hd'.2.1
      · exact absurd h hd'.2.2.1
    · simp only [List.cons_append, List.nil_append, List.cons.injEq] at hq
      obtain ⟨rfl, rfl⟩ := hq
      refine ⟨by simp, by simpa using hd'.2.2.2.1⟩
  · intro q
    rcases hsg with rfl | rfl
    · constructor <;> (intro h; simp only [List.nil_append, List.cons.injEq] at h)
      · exact hd'.1 h.1
      · exact hd'.2.2.2.2.1 h.1
    · constructor <;> (intro h; simp only [List.cons_append, List.nil_append, List.cons.injEq] at h)
      · exact hd'.1 h.2.1
      · exact absurd h.1 (by decide)

/-- decimal digits of a natural number -/
theorem toDigits_numeral (n : Nat) : Numeral 10 (Nat.toDigits 10 n) n := by
  induction n using Nat.strongRecOn with
  | _ n ih =>
    by_cases h : n < 10
    · rw [Nat.toDigits_of_lt_base h]
      have : Nat.digitChar n = Char.ofNat (48 + n) := by
        have : n = 0 ∨ n = 1 ∨ n = 2 ∨ n = 3 ∨ n = 4 ∨ n = 5 ∨ n = 6 ∨ n = 7 ∨ n = 8 ∨ n = 9 := by omega
        rcases this with h | h | h | h | h | h | h | h | h | h <;> subst h <;> decide
      rw [this]
      exact .one _ _ (.dec n h) h
    · rw [Nat.toDigits_of_base_le (by decide) (by omega)]
      have hm : n % 10 < 10 := Nat.mod_lt _ (by decide)
      have hc : Nat.digitChar (n % 10) = Char.ofNat (48 + n % 10) := by
        generalize n % 10 = k at hm
        have : k = 0 ∨ k = 1 ∨ k = 2 ∨ k = 3 ∨ k = 4 ∨ k = 5 ∨ k = 6 ∨ k = 7 ∨ k = 8 ∨ k = 9 := by omega
        rcases this with h | h | h | h | h | h | h | h | h | h <;> subst h <;> decide
      have := Numeral.more (b := 10) _ _ _ _ (ih (n / 10) (by omega)) (.dec (n % 10) hm) hm
      rw [show n / 10 * 10 + n % 10 = n by omega] at this
      rw [hc]
      exact this

theorem toDigits_shape (n : Nat) : ∃ d r, Nat.toDigits 10 n = d :: r ∧ ('0' ≤ d ∧ d ≤ '9') ∧ ∀ c ∈ r, '0' ≤ c ∧ c ≤ '9' := by
  have hall : ∀ (t : List Char) (n : Nat), Numeral 10 t n → t ≠ [] ∧ ∀ c ∈ t, '0' ≤ c ∧ c ≤ '9' := by
    have hd : ∀ (c : Char) (d : Nat), DigitOf c d → d < 10 → '0' ≤ c ∧ c ≤ '9' := by
      intro c d h hlt
      cases h with
      | dec _ h =>
        simp only [char_le_iff, toNat_ofNat_small (48 + d) (by omega)]
        constructor
        · show 48 ≤ 48 + d; omega
        · show 48 + d ≤ 57; omega
      | lower => omega
      | upper => omega
    intro t n h
    induction h with
    | one c d h hlt => exact ⟨by simp, by simpa using hd c d h hlt⟩
    | more ds n c d hn h hlt ih =>
      refine ⟨by simp, fun x hx => ?_⟩
      rcases List.mem_append.1 hx with hx | hx
      · exact ih.2 x hx
      · simp only [List.mem_singleton] at hx; subst hx; exact hd _ d h hlt
  obtain ⟨h1, h2⟩ := hall _ _ (toDigits_numeral n)
  cases h : Nat.toDigits 10 n with
  | nil => exact absurd h h1
  | cons d r =>
    rw [h] at h2
    exact ⟨d, r, rfl, h2 d (by simp), fun c hc => h2 c (by simp [hc])⟩

theorem decimal_mem (c : Char) (h : '0' ≤ c ∧ c ≤ '9') : c ∈ "0123456789+-.e".toList ∧ c ≠ '_' := by
  simp only [char_le_iff] at h
  rw [char_eq_ofNat c]
  have h1 : (48 : Nat) ≤ c.toNat := h.1
  have h2 : c.toNat ≤ 57 := h.2
  have : c.toNat = 48 ∨ c.toNat = 49 ∨ c.toNat = 50 ∨ c.toNat = 51 ∨ c.toNat = 52 ∨ c.toNat = 53 ∨ c.toNat = 54 ∨ c.toNat = 55 ∨ c.toNat = 56 ∨
      c.toNat = 57 := by omega
  rcases this with h | h | h | h | h | h | h | h | h | h <;> rw [h] <;> decide

theorem int_shape (i : Int) : NumberShape (toString i).toList := by
  rw [toString_int]
  split
  · obtain ⟨d, r, h, hd, hr⟩ := toDigits_shape i.toNat
    exact ⟨[], d, r, by rw [h]; rfl, .inl rfl, hd, fun c hc => (decimal_mem c (hr c hc)).1⟩
  · obtain ⟨d, r, h, hd, hr⟩ := toDigits_shape i.natAbs
    exact ⟨['-'], d, r, by rw [h]; rfl, .inr rfl, hd, fun c hc => (decimal_mem c (hr c hc)).1⟩

theorem toDigits_magnitude (n : Nat) : Magnitude (Nat.toDigits 10 n) n := by
  by_cases h0 : n = 0
  · subst h0; exact .zero
  · refine .decimal _ _ (toDigits_numeral n) ?_
    induction n using Nat.strongRecOn with
    | _ n ih =>
      by_cases h : n < 10
      · rw [Nat.toDigits_of_lt_base h]
        have : n = 1 ∨ n = 2 ∨ n = 3 ∨ n = 4 ∨ n = 5 ∨ n = 6 ∨ n = 7 ∨ n = 8 ∨ n = 9 := by omega
        rcases this with h | h | h | h | h | h | h | h | h <;> subst h <;> decide
      · rw [Nat.toDigits_of_base_le (by decide) (by omega)]
        have := ih (n / 10) (by omega) (by omega)
        obtain ⟨d, r, hd, -⟩ := toDigits_shape (n / 10)
        rw [hd] at this ⊢
        simpa using this

theorem toDigits_unscored (n : Nat) : (Nat.toDigits 10 n).filter (· ≠ '_') = Nat.toDigits 10 n := by
  obtain ⟨d, r, h, hd, hr⟩ := toDigits_shape n
  rw [List.filter_eq_self]
  intro c hc
  rw [h] at hc
  have : c ≠ '_' := by
    rcases List.mem_cons.1 hc with rfl | hc
    · exact (decimal_mem _ hd).2
    · exact (decimal_mem _ (hr c hc)).2
  simpa using this

/-- the text of a number is read as this number -/
theorem int_text (i : Int) (h1 : -(2^63) ≤ i) (h2 : i < 2^63) : IntegerText (toString i).toList i := by
  rw [toString_int]
  split
  · rename_i h
    have := IntegerText.pos (s := Nat.toDigits 10 i.toNat) _ i.toNat (toDigits_unscored _).symm (toDigits_magnitude _) (by omega)
    rwa [Int.toNat_of_nonneg h] at this
  · rename_i h
    have := IntegerText.minus (s := '-' :: Nat.toDigits 10 i.natAbs) (Nat.toDigits 10 i.natAbs) i.natAbs (by
      unfold Unscored
      rw [List.filter_cons_of_pos (by decide), toDigits_unscored]) (toDigits_magnitude _) (by omega)
    rwa [show -(i.natAbs : Int) = i by omega] at this

theorem shape_numberLike (s : List Char) (h : NumberShape s) : NumberLike s := by
  obtain ⟨sg, d, r, rfl, rfl | rfl, hd, -⟩ := h
  · exact .inr ⟨d, r, rfl, hd⟩
  · exact .inl ⟨'-', d :: r, rfl, .inl rfl⟩

theorem plainText_word (w : String) (h : w ∈ ["null", "true", "false", "+.inf", "-.inf"]) : PlainText w.toList := by
  rw [← plain_text_iff]
  simp only [List.mem_cons, List.not_mem_nil, or_false] at h
  rcases h with rfl | rfl | rfl | rfl | rfl <;> decide

/-! ### trees -/

/-- a written value, and what is read for it -/
def WrittenOK (X : YLib) (F : Nat → List Char) (src : String) (n : Node E) : Prop :=
  ∃ (es : List WEvent) (t : YTree) (d : Data) (n' : Node E), encode X F n = some es ∧ es.map WEvent.read = t.events ∧ t.noAnchors ∧
    (∀ env, t.data X env = .ok (d, env)) ∧ sanitize src d = some n' ∧ SameContent n n' ∧ n'.src = src ∧ n'.ann = {} ∧
    (∀ a s, t = .scalar a s → QuotedNull s → ∃ w : String, n.val = .str w ∧ w.toList ∈ nullWords.map String.toList)

theorem scalar_data (X : YLib) (s : YScalar) (env : YEnv) : (YTree.scalar "" s).data X env = .ok ((resolveInterface X s).2, env) := by
  rw [YTree.data, define_empty]

/-- plain scalars -/
theorem written_plain (X : YLib) (F : Nat → List Char) (src : String) (v : Val E) (s : String) (an : Ann) (t : List Char) (d : Data) (v' : Val E)
    (he : encodeV X F v = some [writeScalar t .plain]) (hp : PlainText t) (hm : PlainMeans X t d) (hs : sanitize src d = some (Node.new v' src))
    (hc : ∀ s' a', SameContent (.mk v s an) (.mk v' s' a')) : WrittenOK X F src (.mk v s an) := by
  have hsel : decide (selectStyle false t .plain = .plain) = true := by rw [select_plain t hp]; rfl
  refine ⟨_, .scalar "" { value := t }, d, Node.new v' src, by rw [encode]; exact he, ?_, rfl, ?_, hs, hc _ _, rfl, rfl, ?_⟩
  · simp [writeScalar, WEvent.read, YTree.events, hsel]
  · intro env
    rw [scalar_data, (plain_scalar X t d).2 hm]
  · intro a s h hq
    cases h
    exact absurd hq.2.1 (by simp)

/-- lists -/
theorem written_list (X : YLib) (F : Nat → List Char) (src : String) (l : List (Node E)) (h : ∀ n ∈ l, WrittenOK X F src n) :
    ∃ (es : List WEvent) (ts : List YTree) (ds : List Data) (ns : List (Node E)), encodeL X F l = some es ∧ es.map WEvent.read = eventsL ts ∧
      noAnchorsL ts ∧ (∀ env, dataL X ts env = .ok (ds, env)) ∧ sanitizeL src ds = some ns ∧ List.Forall₂ SameContent l ns := by
  induction l with
  | nil => exact ⟨[], [], [], [], rfl, rfl, trivial, fun env => rfl, rfl, .nil⟩
  | cons n r ih =>
    obtain ⟨es, t, d, n', h1, h2, h3, h4, h5, h6, -⟩ := h n (by simp)
    obtain ⟨es', ts, ds, ns, i1, i2, i3, i4, i5, i6⟩ := ih (fun x hx => h x (by simp [hx]))
    refine ⟨es ++ es', t :: ts, d :: ds, n' :: ns, ?_, ?_, ⟨h3, i3⟩, ?_, ?_, .cons h6 i6⟩
    · simp only [encodeL, h1, i1]
    · simp only [List.map_append, h2, i2, eventsL]
    · intro env
      simp only [dataL, h4, i4, YRes.bind]
    · simp only [sanitizeL, h5, i5, consOpt]

theorem encodeM_get (X : YLib) (F : Nat → List Char) (m : List (String × Node E)) (h : ∀ e ∈ m, ∃ es, encode X F e.2 = some es) :
    ∃ em, encodeM X F m = some em ∧ mkeys em = mkeys m ∧ ∀ k, mget em k = (mget m k).bind (encode X F) := by
  induction m with
  | nil => exact ⟨[], rfl, rfl, fun k => rfl⟩
  | cons e r ih =>
    obtain ⟨k, n⟩ := e
    obtain ⟨es, hes⟩ := h (k, n) (by simp)
    obtain ⟨em, h1, h2, h3⟩ := ih (fun e he => h e (by simp [he]))
    refine ⟨(k, es) :: em, ?_, ?_, ?_⟩
    · simp only at hes
      simp only [encodeM, hes, h1]
    · simp [mkeys] at h2 ⊢; exact h2
    · intro q
      simp only at hes
      simp only [mget]
      split
      · simp [hes]
      · exact h3 q

theorem kset_fresh (acc : List (Key × Data)) (k : Key) (v : Data) (h : ∀ e ∈ acc, e.1 ≠ k) : kset acc k v = acc ++ [(k, v)] := by
  induction acc with
  | nil => rfl
  | cons e r ih =>
    obtain ⟨k', v'⟩ := e
    have := h (k', v') (by simp)
    simp only at this
    simp only [kset, if_neg this, List.cons_append]
    rw [ih (fun e he => h e (by simp [he]))]

/-- entries -/
theorem written_entries (X : YLib) (F : Nat → List Char) (src : String) (m : List (String × Node E)) (em : List (String × List WEvent))
    (hem : ∀ k, mget em k = (mget m k).bind (encode X F)) (ks : List String) (hn : ks.Nodup)
    (h : ∀ k ∈ ks, ∃ n, mget m k = some n ∧ WrittenOK X F src n) :
    ∃ (ts : List (YTree × YTree)) (ds : List (Key × Data)) (ns : List (String × Node E)),
      (ks.flatMap (fun k => writeKey X k :: (mget em k).getD [])).map WEvent.read = eventsM ts ∧
      noAnchorsM ts ∧ (∀ acc env, (∀ e ∈ acc, ∀ k ∈ ks, e.1 ≠ Key.str k) → dataM X ts acc env = .ok (acc ++ ds, env)) ∧
      sanitizeD src ds = some ns ∧ mkeys ns = ks ∧ ∀ k ∈ ks, ∃ x y, mget m k = some x ∧ mget ns k = some y ∧ SameContent x y := by
  induction ks with
  | nil => exact ⟨[], [], [], rfl, trivial, fun acc env _ => by simp [dataM], rfl, rfl, by simp⟩
  | cons k r ih =>
    obtain ⟨hk, hr⟩ := List.nodup_cons.1 hn
    obtain ⟨n, hg, es, t, d, n', h1, h2, h3, h4, h5, h6, -⟩ := h k (by simp)
    obtain ⟨ts, ds, ns, i1, i2, i3, i4, i5, i6⟩ := ih hr (fun x hx => h x (by simp [hx]))
    have hke : mget em k = some es := by rw [hem, hg]; exact h1
    refine ⟨(.scalar "" { value := k.toList, implicit := decide (selectStyle (checkSimpleKey k.toList) k.toList (stringStyle X k.toList) = .plain) }, t) :: ts,
      (Key.str k, d) :: ds, (k, n') :: ns, ?_, ⟨rfl, h3, i2⟩, ?_, ?_, ?_, ?_⟩
    · rw [List.flatMap_cons, List.map_append, i1, hke]
      simp only [List.map_cons, Option.getD_some, h2, eventsM, YTree.events, writeKey, WEvent.read]
      simp
    · intro acc env hacc
      have hy : yKey (.str k) = some (.str k) := rfl
      simp only [dataM, scalar_data, read_text, String.ofList_toList, h4, YRes.bind, assignKey, hy]
      rw [kset_fresh acc _ _ (fun e he => hacc e he k (by simp))]
      rw [i3]
      · simp
      · intro e he k' hk'
        rcases List.mem_append.1 he with he | he
        · exact hacc e he k' (by simp [hk'])
        · simp only [List.mem_singleton] at he
          subst he
          intro hh
          injection hh with hh
          subst hh
          exact hk hk'
    · simp only [sanitizeD, h5, i4, consOpt, Option.map_some]
    · simp only [mkeys, List.map_cons] at i5 ⊢; rw [i5]
    · intro q hq
      by_cases hqk : q = k
      · subst hqk
        exact ⟨n, n', hg, by simp [mget], h6⟩
      · rcases List.mem_cons.1 hq with rfl | hq
        · exact absurd rfl hqk
        obtain ⟨x, y, j1, j2, j3⟩ := i6 q hq
        refine ⟨x, y, j1, ?_, j3⟩
        simp only [mget]
        rw [if_neg (fun h => hqk h.symm)]
        exact j2

/-- every document of data is written in a readable form -/
theorem written_ok (X : YLib) (F : Nat → List Char) (src : String) (n : Node E) :
    OnlyData n → NoNaN n → GoMaps n → NumbersOk X F n → WrittenOK X F src n := by
  refine Node.rec
    (motive_1 := fun v => ∀ s an, OnlyData (.mk v s an) → NoNaN (.mk v s an) → GoMapsV v → NumbersOk X F (.mk v s an) → WrittenOK X F src (.mk v s an))
    (motive_2 := fun n => OnlyData n → NoNaN n → GoMaps n → NumbersOk X F n → WrittenOK X F src n)
    (motive_3 := fun l => ∀ n ∈ l, OnlyData n → NoNaN n → GoMaps n → NumbersOk X F n → WrittenOK X F src n)
    (motive_4 := fun m => ∀ e ∈ m, OnlyData e.2 → NoNaN e.2 → GoMaps e.2 → NumbersOk X F e.2 → WrittenOK X F src e.2)
    (motive_5 := fun e => OnlyData e.2 → NoNaN e.2 → GoMaps e.2 → NumbersOk X F e.2 → WrittenOK X F src e.2)
    ?_ ?_ ?_ ?_ ?_ ?_ ?_ ?_ ?_ ?_ ?_ ?_ ?_ ?_ ?_ ?_ n
  case refine_1 =>
    intro s an _ _ _ _
    exact written_plain X F src _ s an "null".toList .nil _ rfl (plainText_word _ (by simp)) (.null (.inr (by decide))) rfl
      (fun _ _ => sameContent_leaf trivial (fun i => by cases i <;> rfl))
  case refine_2 =>
    intro b s an _ _ _ _
    cases b with
    | true =>
      exact written_plain X F src _ s an "true".toList (.bool true) _ rfl (plainText_word _ (by simp))
        (.bool true (.yes "true" (by simp) (by unfold SameWord; decide))) rfl (fun _ _ => sameContent_leaf rfl (fun i => by cases i <;> rfl))
    | false =>
      exact written_plain X F src _ s an "false".toList (.bool false) _ rfl (plainText_word _ (by simp))
        (.bool false (.no "false" (by simp) (by unfold SameWord; decide))) rfl (fun _ _ => sameContent_leaf rfl (fun i => by cases i <;> rfl))
  case refine_3 =>
    intro i s an _ _ _ hnum
    obtain ⟨h1, h2⟩ := (hnum [] _ rfl).1 i rfl
    exact written_plain X F src _ s an (toString i).toList (.num .int64 i) _ rfl (numberShape_plain _ (int_shape i))
      (.int i (shape_numberLike _ (int_shape i)) (int_text i h1 h2)) rfl (fun _ _ => sameContent_leaf rfl (fun i => by cases i <;> rfl))
  case refine_4 =>
    intro b s an _ hnan _ hnum
    have hb := hnan [] _ b rfl rfl
    have hc : ∀ s' a', SameContent (.mk (.float b : Val E) s an) (.mk (.float b) s' a') := fun _ _ =>
      sameContent_leaf (by simp [SameKind, floatEq, hb]) (fun i => by cases i <;> rfl)
    by_cases hi : b = infBits
    · refine written_plain X F src _ s an "+.inf".toList (.float b) _ (by simp [encodeV, floatText, hb, hi]; rw [← hi, hb]; rfl) (plainText_word _ (by simp)) ?_ rfl hc
      refine .float _ (.inl (.inl ⟨'+', _, rfl, .inr rfl⟩)) (fun _ i h => ?_) ?_
      · have := (resolveIntText_iff _ _).2 h
        rw [show resolveIntText "+.inf".toList = none by decide +kernel] at this
        cases this
      · rw [hi]
        exact .plus ".inf".toList _ (by unfold Unscored; decide) (.inf (by unfold SameWord; decide))
    · by_cases hi' : b = floatNeg infBits
      · refine written_plain X F src _ s an "-.inf".toList (.float b) _ (by simp [encodeV, floatText, hb, hi]; rw [if_pos hi']) (plainText_word _ (by simp)) ?_ rfl hc
        refine .float _ (.inl (.inl ⟨'-', _, rfl, .inl rfl⟩)) (fun _ i h => ?_) ?_
        · have := (resolveIntText_iff _ _).2 h
          rw [show resolveIntText "-.inf".toList = none by decide +kernel] at this
          cases this
        · rw [hi']
          exact .minus ".inf".toList _ (by unfold Unscored; decide) (.inf (by unfold SameWord; decide))
      · have hw : FloatWritten X F b := by
          rcases (hnum [] _ rfl).2 b rfl with h | h | h
          · exact absurd h hi
          · exact absurd h hi'
          · exact h
        exact written_plain X F src _ s an (F b) (.float b) _ (by simp [encodeV, floatText, hb, hi, hi']) (numberShape_plain _ hw.shape)
          (.float _ (.inl (shape_numberLike _ hw.shape)) (fun _ => hw.noInt) hw.same) rfl hc
  case refine_5 =>
    intro w s an _ _ _ _
    refine ⟨_, .scalar "" { value := w.toList, implicit := decide (selectStyle false w.toList (stringStyle X w.toList) = .plain) }, .str w,
      Node.new (.str w) src, rfl, rfl, rfl, ?_, rfl, sameContent_leaf rfl (fun i => by cases i <;> rfl), rfl, rfl, ?_⟩
    · intro env
      rw [scalar_data, read_text, String.ofList_toList]
    · intro a t ht hq
      cases ht
      exact ⟨w, rfl, hq.2.2⟩
  case refine_6 =>
    intro l ih s an ho hn hg hnum
    simp only [GoMapsV, GoMapsL_iff] at hg
    have hi : ∀ x ∈ l, WrittenOK X F src x := by
      intro x hxm
      obtain ⟨i, hx⟩ := List.mem_iff_getElem?.1 hxm
      refine ih x hxm (fun p y hy => ho (.idx i :: p) y ?_) (fun p y b hy => hn (.idx i :: p) y b ?_) (hg x hxm) (fun p y hy => hnum (.idx i :: p) y ?_)
      · simpa [locate, child, hx] using hy
      · simpa [locate, child, hx] using hy
      · simpa [locate, child, hx] using hy
    obtain ⟨es, ts, ds, ns, h1, h2, h3, h4, h5, h6⟩ := written_list X F src l hi
    refine ⟨.seqStart :: (es ++ [.seqEnd]), .seq "" ts, .seq ds, Node.new (.list ns) src, by simp [encode, encodeV, h1], ?_, ⟨rfl, h3⟩, ?_, by simp [sanitize, h5], ?_, rfl, rfl, ?_⟩
    · simp [YTree.events, h2, WEvent.read]
    · intro env
      simp only [YTree.data, h4, YRes.bind, define_empty]
    · refine agree_step.2 ⟨trivial, fun i => ?_⟩
      cases i with
      | idx i =>
        simp only [Node.val_mk, Node.val_new, child]
        rcases hx : l[i]? with _ | x
        · have : ns[i]? = none := by
            rw [List.getElem?_eq_none_iff] at hx ⊢; rw [← h6.length_eq]; exact hx
          simp [this, Both]
        · have hil : i < l.length := (List.getElem?_eq_some_iff.1 hx).1
          have hit : i < ns.length := by rw [← h6.length_eq]; exact hil
          rw [List.getElem?_eq_getElem hit]
          have := (List.forall₂_iff_get.1 h6).2 i hil hit
          simp only [List.get_eq_getElem] at this
          rw [List.getElem?_eq_getElem hil] at hx
          cases hx
          exact this
      | _ => exact trivial
    · intro a s h; cases h
  case refine_7 =>
    intro m ih s an ho hn hg hnum
    simp only [GoMapsV, GoMapsM_iff] at hg
    have hi : ∀ e ∈ m, WrittenOK X F src e.2 := by
      intro x hxm
      have hxg := mget_of_mem hg.1 hxm
      refine ih x hxm (fun p y hy => ho (.key x.1 :: p) y ?_) (fun p y b hy => hn (.key x.1 :: p) y b ?_) (hg.2 x hxm)
        (fun p y hy => hnum (.key x.1 :: p) y ?_)
      · simpa [locate, child, hxg] using hy
      · simpa [locate, child, hxg] using hy
      · simpa [locate, child, hxg] using hy
    obtain ⟨em, hm1, hm2, hm3⟩ := encodeM_get X F m (fun e he => by obtain ⟨es, _, _, _, h, _⟩ := hi e he; exact ⟨es, h⟩)
    have hsk : sortedKeys em = sortedKeys m := by unfold sortedKeys; rw [hm2]
    have hperm : (sortedKeys m).Perm (mkeys m) := sortStr_perm _
    obtain ⟨ts, ds, ns, h1, h2, h3, h4, h5, h6⟩ := written_entries X F src m em hm3 (sortedKeys m) (hperm.nodup_iff.2 hg.1) (by
      intro k hk
      have hk := hperm.mem_iff.1 hk
      obtain ⟨e, he, rfl⟩ := List.mem_map.1 hk
      exact ⟨e.2, mget_of_mem hg.1 he, hi e he⟩)
    refine ⟨.mapStart :: (sortedEntries X em ++ [.mapEnd]), .map "" ts, .dict ds, Node.new (.map ns) src, by simp [encode, encodeV, hm1], ?_, ⟨rfl, h2⟩, ?_,
      by simp [sanitize, h4], ?_, rfl, rfl, ?_⟩
    · have : (sortedEntries X em).map WEvent.read = eventsM ts := by
        rw [← h1]
        unfold sortedEntries
        rw [hsk]
      simp [YTree.events, this, WEvent.read]
    · intro env
      simp only [YTree.data, h3 [] env (by simp), YRes.bind, define_empty, List.nil_append]
    · refine agree_step.2 ⟨trivial, fun i => ?_⟩
      cases i with
      | key k =>
        simp only [Node.val_mk, Node.val_new, child]
        by_cases hk : k ∈ mkeys m
        · obtain ⟨x, y, j1, j2, j3⟩ := h6 k (hperm.mem_iff.2 hk)
          rw [j1, j2]
          exact j3
        · have hx : mget m k = none := mget_none_iff.2 hk
          have hy : mget ns k = none := mget_none_iff.2 (by rw [h5]; exact fun h => hk (hperm.mem_iff.1 h))
          rw [hx, hy]
          exact trivial
      | _ => exact trivial
    · intro a s h; cases h
  case refine_8 => intro e s an ho; exact absurd rfl ((ho [] _ rfl).1 e)
  case refine_9 => intro n ih s an ho; exact absurd rfl ((ho [] _ rfl).2.1 n)
  case refine_10 => intro e s an ho; exact absurd rfl ((ho [] _ rfl).2.2 e)
  case refine_11 => intro v s an ih ho hn hg; exact ih s an ho hn (by simpa [GoMaps] using hg)
  case refine_12 => intro a h; cases h
  case refine_13 =>
    intro x r h1 h2 a h
    rcases List.mem_cons.1 h with rfl | h
    · exact h1
    · exact h2 a h
  case refine_14 => intro a h; cases h
  case refine_15 =>
    intro x r h1 h2 a h
    rcases List.mem_cons.1 h with rfl | h
    · exact h1
    · exact h2 a h
  case refine_16 => intro k n ih; exact ih

theorem noAnchors_tame (t : YTree) : t.noAnchors → t.tame ∧ t.anchor = "" := by
  refine YTree.rec
    (motive_1 := fun t => t.noAnchors → t.tame ∧ t.anchor = "")
    (motive_2 := fun l => noAnchorsL l → tameL l)
    (motive_3 := fun m => noAnchorsM m → tameM m)
    (motive_4 := fun e => (e.1.noAnchors → e.1.tame ∧ e.1.anchor = "") ∧ (e.2.noAnchors → e.2.tame ∧ e.2.anchor = ""))
    ?_ ?_ ?_ ?_ ?_ ?_ ?_ ?_ ?_ t
  · intro a s h; exact ⟨.inl h, h⟩
  · intro a l ih h
    rw [YTree.noAnchors] at h
    exact ⟨by rw [YTree.tame, if_pos h.1]; exact ih h.2, h.1⟩
  · intro a l ih h
    rw [YTree.noAnchors] at h
    exact ⟨by rw [YTree.tame, if_pos h.1]; exact ih h.2, h.1⟩
  · intro a h; exact ⟨trivial, rfl⟩
  · intro _; trivial
  · intro t r h1 h2 h
    rw [noAnchorsL] at h
    exact ⟨(h1 h.1).1, fun u _ => .inl (h1 h.1).2, h2 h.2⟩
  · intro _; trivial
  · rintro ⟨k, v⟩ r h1 h2 h
    rw [noAnchorsM] at h
    exact ⟨(h1.1 h.1).1, (h1.2 h.2.1).1, .inl (h1.1 h.1).2, fun u _ => .inl (h1.2 h.2.1).2, h2 h.2.2⟩
  · intro k v h1 h2; exact ⟨h1, h2⟩

/-- **C74**: a document of data, written and read again, is the same document; its source is the new one, and it has no annotations. Only a
document which is nothing but a word for null is read as null. -/
theorem write_read (X : YLib) (F : Nat → List Char) (src : String) (n : Node E) (ho : OnlyData n) (hn : NoNaN n) (hg : GoMaps n)
    (hnum : NumbersOk X F n) (hroot : ∀ s : String, n.val = .str s → s ∉ ["~", "null", "Null", "NULL"]) :
    ∃ (es : List WEvent) (d : Data) (n' : Node E), encode X F n = some es ∧
      (∃ N, ∀ fuel, N ≤ fuel → yDecode X fuel (.streamStart :: .docStart :: (es.map WEvent.read ++ [.docEnd, .streamEnd])) = .ok [d]) ∧
      sanitize src d = some n' ∧ SameContent n n' ∧ n'.src = src ∧ n'.ann = {} := by
  obtain ⟨es, t, d, n', h1, h2, h3, h4, h5, h6, h7, h8, h9⟩ := written_ok X F src n ho hn hg hnum
  refine ⟨es, d, n', h1, ?_, h5, h6, h7, h8⟩
  obtain ⟨N, hN⟩ := read_documents X [t] (by simp) (by
    intro u hu
    simp only [List.mem_singleton] at hu
    subst hu
    refine ⟨(noAnchors_tame u h3).1, fun a s hs hq => ?_⟩
    obtain ⟨w, hw, hm⟩ := h9 a s hs hq
    apply hroot w hw
    obtain ⟨w', hw', he⟩ := List.mem_map.1 hm
    rw [String.toList_inj] at he
    rw [← he]
    exact hw')
  refine ⟨N, fun f hf => ?_⟩
  have := hN f hf
  simp only [docEvents, ← h2, dataDocs, h4, YRes.bind] at this
  exact this

/-- **C74**: what is written does not depend on the (random) order of the entries of a map. -/
theorem write_order (X : YLib) (F : Nat → List Char) (m m' : List (String × Node E)) (hm : MapOK m) (hp : m.Perm m') (s s' : String) (a a' : Ann) :
    encode X F (.mk (.map m) s a) = encode X F (.mk (.map m') s' a') := by
  have hm' : MapOK m' := (hp.map Prod.fst).nodup_iff.1 hm
  simp only [encode, encodeV]
  by_cases h : ∀ e ∈ m, ∃ es, encode X F e.2 = some es
  · obtain ⟨em, h1, h2, h3⟩ := encodeM_get X F m h
    obtain ⟨em', h1', h2', h3'⟩ := encodeM_get X F m' (fun e he => h e (hp.mem_iff.2 he))
    have hk : sortedKeys em = sortedKeys em' := by
      unfold sortedKeys
      rw [h2, h2']
      exact sortedKeys_perm hp
    have hg : ∀ k, mget m k = mget m' k := by
      intro k
      cases hx : mget m k with
      | none =>
        rw [mget_none_iff] at hx
        exact (mget_none_iff.2 (fun h => hx ((hp.map Prod.fst).mem_iff.2 h))).symm
      | some x => exact (mget_of_mem hm' (hp.mem_iff.1 (mget_some_mem hx))).symm
    have : sortedEntries X em = sortedEntries X em' := by
      unfold sortedEntries
      rw [hk]
      have : ∀ k, mget em k = mget em' k := fun k => by rw [h3, h3', hg]
      simp only [this]
    rw [h1, h1', Option.map_some, Option.map_some, this]
  · have none_of : ∀ m : List (String × Node E), (¬ ∀ e ∈ m, ∃ es, encode X F e.2 = some es) → encodeM X F m = none := by
      intro m
      induction m with
      | nil => intro h; exact absurd (by simp) h
      | cons e r ih =>
        obtain ⟨k, n⟩ := e
        intro h
        cases h1 : encode X F n with
        | none => simp [encodeM, h1]
        | some es =>
          have : encodeM X F r = none := ih (fun hr => h (fun e he => by
            rcases List.mem_cons.1 he with rfl | he
            · exact ⟨es, h1⟩
            · exact hr e he))
          simp [encodeM, h1, this]
    rw [none_of m h, none_of m' (fun h' => h (fun e he => h' e (hp.mem_iff.1 he)))]

/-- **C74**: the keys of a written map are in ascending order, each with the events of its value. -/
theorem write_sorted (X : YLib) (F : Nat → List Char) (m : List (String × Node E)) (hm : MapOK m) (s : String) (a : Ann) (es : List WEvent)
    (h : encode X F (.mk (.map m) s a) = some es) :
    ∃ l : List (String × List WEvent), (l.map Prod.fst).Pairwise (· < ·) ∧ (∀ k w, (k, w) ∈ l ↔ ∃ n, (k, n) ∈ m ∧ encode X F n = some w) ∧
      es = .mapStart :: (l.flatMap (fun e => writeKey X e.1 :: e.2) ++ [.mapEnd]) := by
  simp only [encode, encodeV, Option.map_eq_some_iff] at h
  obtain ⟨em, h1, rfl⟩ := h
  have hall : ∀ (m : List (String × Node E)) em, encodeM X F m = some em → ∀ e ∈ m, ∃ es, encode X F e.2 = some es := by
    intro m
    induction m with
    | nil => intro em _ e he; cases he
    | cons e r ih =>
      obtain ⟨k, n⟩ := e
      intro em hem x hx
      simp only [encodeM] at hem
      split at hem
      · rename_i a b ha hb
        rcases List.mem_cons.1 hx with rfl | hx
        · exact ⟨a, ha⟩
        · exact ih b hb x hx
      · cases hem
  obtain ⟨em', h1', h2, h3⟩ := encodeM_get X F m (hall m em h1)
  rw [h1] at h1'
  cases h1'
  have hperm : (sortedKeys em).Perm (mkeys em) := sortStr_perm _
  have hok : MapOK em := by unfold MapOK; rw [h2]; exact hm
  have hnd : (sortedKeys em).Nodup := hperm.nodup_iff.2 hok
  refine ⟨(sortedKeys em).map (fun k => (k, (mget em k).getD [])), ?_, ?_, ?_⟩
  · rw [List.map_map]
    have : (Prod.fst ∘ fun k => (k, (mget em k).getD [])) = (id : String → String) := rfl
    rw [this, List.map_id]
    exact sorted_strict (sortStr_sorted _) hnd
  · intro k w
    constructor
    · intro hkw
      obtain ⟨q, hq, he⟩ := List.mem_map.1 hkw
      cases he
      have hq := hperm.mem_iff.1 hq
      rw [h2] at hq
      obtain ⟨e, he, rfl⟩ := List.mem_map.1 hq
      obtain ⟨es, hes⟩ := hall m em h1 e he
      refine ⟨e.2, he, ?_⟩
      rw [h3, mget_of_mem hm he]
      simp [hes]
    · rintro ⟨n, hn, hw⟩
      refine List.mem_map.2 ⟨k, hperm.mem_iff.2 (by rw [h2]; exact List.mem_map.2 ⟨_, hn, rfl⟩), ?_⟩
      rw [h3, mget_of_mem hm hn]
      simp [hw]
  · simp [sortedEntries, List.flatMap_map]

/-! ### defects -/

/-- **C74** (defect): a floating point number without fractional digits is written like an integer, and read as an integer. -/
theorem float_becomes_int_defect (X : YLib) (F : Nat → List Char) (b : Nat) (i : Int) (hb : isNaN b = false) (h1 : b ≠ infBits)
    (h2 : b ≠ floatNeg infBits) (hF : F b = (toString i).toList) (hi : -(2^63) ≤ i ∧ i < 2^63) :
    ∃ es, encode X F (.mk (.float b : Val E) "" {}) = some es ∧
      (∃ N, ∀ fuel, N ≤ fuel → yDecode X fuel (.streamStart :: .docStart :: (es.map WEvent.read ++ [.docEnd, .streamEnd])) = .ok [.num .int64 i]) := by
  refine ⟨[writeScalar (toString i).toList .plain], by simp [encode, encodeV, floatText, hb, h1, h2, hF], ?_⟩
  have hsel : decide (selectStyle false (toString i).toList .plain = .plain) = true := by
    rw [select_plain _ (numberShape_plain _ (int_shape i))]; rfl
  obtain ⟨N, hN⟩ := read_documents X [.scalar "" { value := (toString i).toList }] (by simp) (by
    intro u hu
    simp only [List.mem_singleton] at hu
    subst hu
    exact ⟨.inl rfl, fun a s hs hq => by cases hs; exact absurd hq.2.1 (by simp)⟩)
  refine ⟨N, fun f hf => ?_⟩
  have := hN f hf
  simp only [docEvents, dataDocs, scalar_data, YRes.bind, YTree.events,
    (plain_scalar X _ _).2 (.int i (shape_numberLike _ (int_shape i)) (int_text i hi.1 hi.2))] at this
  simp only [writeScalar, WEvent.read, hsel, List.map_cons, List.map_nil]
  exact this

/-- **C74** (defect): a document consisting of a word for null is read as null, although it is written with quotes. -/
theorem null_word_document_defect (X : YLib) (F : Nat → List Char) (w : String) (hw : w ∈ ["~", "null", "Null", "NULL"]) :
    ∃ es, encode X F (.mk (.str w : Val E) "" {}) = some es ∧ es = [.scalar w.toList .double] ∧
      (∃ N, ∀ fuel, N ≤ fuel → yDecode X fuel (.streamStart :: .docStart :: (es.map WEvent.read ++ [.docEnd, .streamEnd])) = .ok [.nil]) := by
  have hn : isNullWord w.toList = true := (isNullWord_iff _).2 (List.mem_map_of_mem (f := String.toList) hw)
  have hst : stringStyle X w.toList = .double := by
    unfold stringStyle
    rw [if_pos]
    have : (resolveInterface X { value := w.toList }).2 = .nil := (plain_scalar X _ _).2 (.null ((null_iff _).2 (.inr hn)))
    intro h
    rw [resolve_str_tag X _ h] at this
    cases this
  have hsel : selectStyle false w.toList .double = .double := by simp [selectStyle]
  refine ⟨[.scalar w.toList .double], by simp [encode, encodeV, writeScalar, hst, hsel], rfl, ?_⟩
  obtain ⟨N, hN⟩ := quoted_null_document_defect X "" { value := w.toList, implicit := false } ⟨rfl, rfl, List.mem_map_of_mem (f := String.toList) hw⟩
  exact ⟨N, fun f hf => by simpa [docEvents, YTree.events, WEvent.read] using hN f hf⟩

/-! ### examples -/

/-- a document with nested collections, a key looking like a number and several texts which have to be quoted -/
def writeExample : Node Unit :=
  .mk (.map [("z", .mk (.list [.mk (.int (-12)) "" {}, .mk (.str "no") "" {}, .mk (.str "a: b") "" {}]) "" {}),
    ("5", .mk .nil "" {}), ("a", .mk (.float 0x3FF8000000000000) "" {})]) "" {}

def writeExampleF (b : Nat) : List Char := if b = 0x3FF8000000000000 then "1.5".toList else ['0']

def writeExampleLib : YLib := ⟨fun s => if s = "1.5".toList then some 0x3FF8000000000000 else none, fun _ => none, fun _ => false⟩

theorem write_example : encode writeExampleLib writeExampleF writeExample = some
    [.mapStart, .scalar "5".toList .double, .scalar "null".toList .plain, .scalar "a".toList .plain, .scalar "1.5".toList .plain,
     .scalar "z".toList .plain, .seqStart, .scalar "-12".toList .plain, .scalar "no".toList .double, .scalar "a: b".toList .single, .seqEnd, .mapEnd] := by
  decide +kernel

theorem write_example_numbers : FloatWritten writeExampleLib writeExampleF 0x3FF8000000000000 := by
  have hF : writeExampleF 0x3FF8000000000000 = ['1', '.', '5'] := by decide +kernel
  refine ⟨?_, ?_, ?_⟩
  · rw [hF]
    exact ⟨[], '1', ['.', '5'], rfl, .inl rfl, by decide, by decide⟩
  · rw [← resolveFloat_iff, hF]; decide +kernel
  · intro i hi
    rw [← resolveIntText_iff, hF, show resolveIntText ['1', '.', '5'] = none by decide +kernel] at hi
    cases hi

theorem write_example_nodes (p : List Ix) (x : Node Unit) (h : locate writeExample p = some x) :
    (∃ m, x.val = .map m) ∨ (∃ l, x.val = .list l) ∨ x.val = .int (-12) ∨ (∃ s, x.val = .str s) ∨ x.val = .nil ∨ x.val = .float 0x3FF8000000000000 := by
  have leaf : ∀ (v : Val Unit) (p : List Ix), (∀ i, child v i = none) → locate (.mk v "" {}) p = some x → x.val = v := by
    intro v p hv h
    cases p with
    | nil => cases h; rfl
    | cons i p => simp [locate, hv i] at h
  cases p with
  | nil => cases h; exact .inl ⟨_, rfl⟩
  | cons i p =>
    cases i with
    | idx n => cases h
    | body => cases h
    | key k =>
      have hc : child writeExample.val (.key k) = if k = "z" then some (.mk (.list [.mk (.int (-12)) "" {}, .mk (.str "no") "" {}, .mk (.str "a: b") "" {}]) "" {})
          else if k = "5" then some (.mk .nil "" {}) else if k = "a" then some (.mk (.float 0x3FF8000000000000) "" {}) else none := by
        simp only [writeExample, Node.val_mk, child, mget, eq_comm (b := k)]
      rw [locate, hc] at h
      split at h
      · rename_i hn
        split at hn
        · cases hn
          cases p with
          | nil => cases h; exact .inr (.inl ⟨_, rfl⟩)
          | cons i p =>
            cases i with
            | key k => cases h
            | body => cases h
            | idx i =>
              match i with
              | 0 => exact .inr (.inr (.inl (leaf _ p (fun i => by cases i <;> rfl) h)))
              | 1 => exact .inr (.inr (.inr (.inl ⟨_, leaf _ p (fun i => by cases i <;> rfl) h⟩)))
              | 2 => exact .inr (.inr (.inr (.inl ⟨_, leaf _ p (fun i => by cases i <;> rfl) h⟩)))
              | i + 3 => cases h
        · split at hn
          · cases hn
            exact .inr (.inr (.inr (.inr (.inl (leaf _ p (fun i => by cases i <;> rfl) h)))))
          · split at hn
            · cases hn
              exact .inr (.inr (.inr (.inr (.inr (leaf _ p (fun i => by cases i <;> rfl) h)))))
            · cases hn
      · cases h

/-- the conditions of `write_read` are met by the example -/
theorem write_example_ok : OnlyData writeExample ∧ NoNaN writeExample ∧ GoMaps writeExample ∧ NumbersOk writeExampleLib writeExampleF writeExample ∧
    ∀ s : String, writeExample.val = .str s → s ∉ ["~", "null", "Null", "NULL"] := by
  refine ⟨?_, ?_, ?_, ?_, ?_⟩
  · intro p x h
    rcases write_example_nodes p x h with ⟨m, h⟩ | ⟨l, h⟩ | h | ⟨s, h⟩ | h | h <;> rw [h] <;> simp
  · intro p x b h hx
    rcases write_example_nodes p x h with ⟨m, h⟩ | ⟨l, h⟩ | h | ⟨s, h⟩ | h | h <;> rw [h] at hx <;> cases hx
    decide
  · simp [writeExample, GoMaps, GoMapsV, GoMapsM, GoMapsL, MapOK, mkeys]
  · intro p x h
    rcases write_example_nodes p x h with ⟨m, h⟩ | ⟨l, h⟩ | h | ⟨s, h⟩ | h | h <;> rw [h]
    · exact ⟨(by intro _ h; cases h), (by intro _ h; cases h)⟩
    · exact ⟨(by intro _ h; cases h), (by intro _ h; cases h)⟩
    · exact ⟨(by intro i h; cases h; decide), (by intro _ h; cases h)⟩
    · exact ⟨(by intro _ h; cases h), (by intro _ h; cases h)⟩
    · exact ⟨(by intro _ h; cases h), (by intro _ h; cases h)⟩
    · exact ⟨(by intro _ h; cases h), fun b h => by cases h; exact .inr (.inr write_example_numbers)⟩
  · intro s h; cases h

end Spiff
