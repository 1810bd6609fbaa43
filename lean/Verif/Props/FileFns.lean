import Verif.Spec.FileFns
import Verif.Props.YamlScalar
import Verif.Props.Values2
import Verif.Props.Base64
import Verif.Props.Tags
/-
C75: what is written to files and given to commands; options and tagged names (dynaml/write.go, exec.go, archive.go).
-/
namespace Spiff
open Spiff.Spec
variable {E : Type}

/-! ### texts -/

theorem join_cons (a : String) (l : List String) : String.join (a :: l) = a ++ String.join l := by
  have h : ∀ (l : List String) (a b : String), List.foldl (fun r s => r ++ s) (a ++ b) l = a ++ List.foldl (fun r s => r ++ s) b l := by
    intro l
    induction l with
    | nil => intro a b; rfl
    | cons x l ih => intro a b; rw [List.foldl_cons, List.foldl_cons, String.append_assoc, ih]
  have := h l a ""
  rw [String.append_empty] at this
  unfold String.join
  rw [List.foldl_cons, String.empty_append, this]

theorem marshalDocs_iff (L : IoLib E) (l : List (Node E)) (t : String) :
    marshalDocs L l = some t ↔ ∃ ts, List.Forall₂ (fun n t => L.marshal n = some t) l ts ∧ t = String.join (ts.map (fun t => "---\n" ++ t)) := by
  induction l generalizing t with
  | nil =>
    constructor
    · intro h; simp [marshalDocs] at h; exact ⟨[], .nil, by rw [h]; rfl⟩
    · rintro ⟨ts, h, rfl⟩; cases h; rfl
  | cons n l ih =>
    simp only [marshalDocs]
    constructor
    · intro h
      cases hm : L.marshal n with
      | none => rw [hm] at h; simp at h
      | some x =>
        rw [hm] at h
        simp only [Option.map_eq_some_iff] at h
        obtain ⟨s, hs, rfl⟩ := h
        obtain ⟨ts, hf, rfl⟩ := (ih s).1 hs
        exact ⟨x :: ts, .cons hm hf, by rw [List.map_cons, join_cons]⟩
    · rintro ⟨ts, h, rfl⟩
      cases h with
      | cons hx hf =>
        rename_i x ts
        rw [hx]
        simp only [Option.map_eq_some_iff]
        exact ⟨_, (ih _).2 ⟨ts, hf, rfl⟩, by rw [List.map_cons, join_cons]⟩

theorem docText_iff (o : Option String) (t : String) (b : Bool) : docText o = ⟨t, b, true⟩ ↔ o = some t ∧ b = false := by
  cases o <;> simp [docText, eq_comm]

theorem scalarText_bool (L : IoLib E) (b : Bool) (t : String) : ScalarText L (.bool b) t ↔ t = showBool b := by
  constructor
  · intro h; cases h <;> rfl
  · rintro rfl; cases b
    · exact .false
    · exact .true

/-- the text of a value is the one of `getArg` -/
theorem getArg_iff (L : IoLib E) (multi : Bool) (v : Val E) (t : String) :
    ((getArg L multi true v).ok = true ∧ (getArg L multi true v).text = t) ↔ DataText L multi v t := by
  have key : ∀ v : Val E, Structured v → (((yamlArg L multi v).ok = true ∧ (yamlArg L multi v).text = t) ↔ DataText L multi v t) := by
    intro v hs
    constructor
    · rintro ⟨h1, h2⟩
      unfold yamlArg at h1 h2
      cases multi with
      | false =>
        simp only [Bool.false_eq_true, if_false] at h1 h2
        cases hm : L.marshal (Node.new v "") with
        | none => rw [hm] at h1; simp [docText] at h1
        | some x =>
          rw [hm] at h2
          simp only [Option.map_some, docText] at h2
          subst h2
          exact .doc v x hs rfl hm
      | true =>
        simp only [if_true] at h1 h2
        cases v with
        | list l =>
          simp only at h1 h2
          cases hm : marshalDocs L l with
          | none => rw [hm] at h1; simp [docText] at h1
          | some x =>
            rw [hm] at h2
            simp only [docText] at h2
            subst h2
            obtain ⟨ts, hf, rfl⟩ := (marshalDocs_iff L l x).1 hm
            exact .docs l ts rfl hf
        | _ => simp [docText] at h1
    · intro h
      cases h with
      | simple _ _ h => cases h <;> exact absurd hs (by simp [Structured])
      | doc _ x _ hm h => subst hm; simp [yamlArg, h, docText]
      | docs l ts hm h =>
        subst hm
        have := (marshalDocs_iff L l _).2 ⟨ts, h, rfl⟩
        simp [yamlArg, this, docText]
  cases v with
  | nil =>
    simp only [getArg, docText, Bool.false_eq_true, false_and, false_iff]
    intro h
    cases h with
    | simple _ _ h => cases h
    | doc _ _ hs => exact absurd hs (by simp [Structured])
  | bool b =>
    simp only [getArg, true_and]
    constructor
    · intro h; exact .simple _ _ ((scalarText_bool L b t).2 h.symm)
    · intro h
      cases h with
      | simple _ _ h => exact ((scalarText_bool L b t).1 h).symm
      | doc _ _ hs => exact absurd hs (by simp [Structured])
  | int i =>
    simp only [getArg, true_and]
    constructor
    · rintro rfl; exact .simple _ _ (.int i)
    · intro h
      cases h with
      | simple _ _ h => cases h; rfl
      | doc _ _ hs => exact absurd hs (by simp [Structured])
  | float i =>
    simp only [getArg, true_and]
    constructor
    · rintro rfl; exact .simple _ _ (.float i)
    · intro h
      cases h with
      | simple _ _ h => cases h; rfl
      | doc _ _ hs => exact absurd hs (by simp [Structured])
  | str i =>
    simp only [getArg, true_and]
    constructor
    · rintro rfl; exact .simple _ _ (.str i)
    · intro h
      cases h with
      | simple _ _ h => cases h; rfl
      | doc _ _ hs => exact absurd hs (by simp [Structured])
  | _ => simp only [getArg, if_true]; exact key _ (by simp [Structured])

/-- a value without text -/
theorem getArg_none (L : IoLib E) (multi : Bool) (v : Val E) :
    (getArg L multi true v).ok = false ↔ ¬ ∃ t, DataText L multi v t := by
  constructor
  · rintro h ⟨t, ht⟩
    rw [((getArg_iff L multi v t).2 ht).1] at h; cases h
  · intro h
    cases hk : (getArg L multi true v).ok with
    | false => rfl
    | true => exact absurd ⟨_, (getArg_iff L multi v _).1 ⟨hk, rfl⟩⟩ h

theorem docText_fail (o : Option String) (h : (docText o).ok = false) : (docText o).text = "" := by cases o <;> simp_all [docText]

theorem getArg_fail (L : IoLib E) (multi ay : Bool) (v : Val E) (h : (getArg L multi ay v).ok = false) :
    (getArg L multi ay v).text = "" ∧ (getArg L multi ay v).isStr = false := by
  have hd : ∀ o : Option String, (docText o).isStr = false := by intro o; cases o <;> rfl
  have hy : (yamlArg L multi v).ok = false → (yamlArg L multi v).text = "" ∧ (yamlArg L multi v).isStr = false := by
    intro h
    unfold yamlArg at h ⊢
    split at h <;> rename_i h'
    · simp only [h', if_true] at h ⊢
      split at h <;> exact ⟨docText_fail _ h, hd _⟩
    · simp only [h', Bool.false_eq_true, if_false] at h ⊢
      exact ⟨docText_fail _ h, hd _⟩
  cases v <;> simp only [getArg] at h ⊢ <;> first
    | (cases h; done)
    | (exact ⟨docText_fail _ h, hd _⟩)
    | (cases ay
       · simp [docText]
       · exact hy h)

/-- strings are recognized -/
theorem getArg_isStr (L : IoLib E) (multi ay : Bool) (v : Val E) : (getArg L multi ay v).isStr = true ↔ ∃ s, v = .str s := by
  have hd : ∀ o : Option String, (docText o).isStr = false := by intro o; cases o <;> rfl
  have hy : ∀ v : Val E, (yamlArg L multi v).isStr = false := by
    intro v
    unfold yamlArg
    split
    · split <;> exact hd _
    · exact hd _
  cases v <;> simp [getArg, hd] <;> (split <;> simp [hy, hd])

/-- the text of a simple value, with structured values not allowed -/
theorem getArg_simple (L : IoLib E) (multi : Bool) (v : Val E) (t : String) :
    ((getArg L multi false v).ok = true ∧ (getArg L multi false v).text = t) ↔ ScalarText L v t := by
  cases v with
  | bool b => simp only [getArg, true_and, scalarText_bool]; exact eq_comm
  | str s => simp only [getArg, true_and]; exact ⟨fun h => h ▸ .str s, fun h => by cases h; rfl⟩
  | int s => simp only [getArg, true_and]; exact ⟨fun h => h ▸ .int s, fun h => by cases h; rfl⟩
  | float s => simp only [getArg, true_and]; exact ⟨fun h => h ▸ .float s, fun h => by cases h; rfl⟩
  | _ => simp only [getArg, docText, Bool.false_eq_true, if_false, false_and, false_iff]; intro h; cases h

/-! ### options -/

theorem splitCh_parts (sep : Char) (s : List Char) : PartsAt sep s (splitCh sep s) := by
  induction s with
  | nil => exact .one [] (by simp)
  | cons c r ih =>
    rw [splitCh]
    by_cases hc : c = sep
    · rw [if_pos hc]; subst hc; exact .more [] r _ (by simp) ih
    · rw [if_neg hc]
      generalize splitCh sep r = ps at ih
      cases ih with
      | one _ h => exact .one (c :: r) (by simp [h, Ne.symm hc])
      | more p s ps h hs => exact .more (c :: p) s ps (by simp [h, Ne.symm hc]) hs

theorem parts_unique (sep : Char) (s : List Char) (ps qs : List (List Char)) (h : PartsAt sep s ps) (h' : PartsAt sep s qs) : ps = qs := by
  induction h generalizing qs with
  | one p hp =>
    cases h' with
    | one => rfl
    | more => simp at hp
  | more p s ps hp hs ih =>
    generalize ht : p ++ sep :: s = t at h'
    cases h' with
    | one q hq => subst ht; simp at hq
    | more q s' qs hq hs' =>
      rw [List.append_eq_append_iff] at ht
      rcases ht with ⟨a, h1, h2⟩ | ⟨a, h1, h2⟩
      · cases a with
        | nil => simp at h1 h2; subst h2; rw [ih _ hs', h1]
        | cons x a => simp at h2; obtain ⟨rfl, _⟩ := h2; subst h1; simp at hq
      · cases a with
        | nil => simp at h1 h2; subst h2; rw [ih _ hs', h1]
        | cons x a => simp at h2; obtain ⟨rfl, _⟩ := h2; subst h1; simp at hp

theorem parts_iff (sep : Char) (s : List Char) (ps : List (List Char)) : PartsAt sep s ps ↔ ps = splitCh sep s :=
  ⟨fun h => parts_unique _ _ _ _ h (splitCh_parts _ _), fun h => h ▸ splitCh_parts _ _⟩

theorem isSpaceC_iff (c : Char) : isSpaceC c = true ↔ Blank c := by
  have h11 : c.toNat = 11 ↔ c = Char.ofNat 11 := ⟨fun h => by rw [← h, Char.ofNat_toNat], fun h => by subst h; rfl⟩
  have h12 : c.toNat = 12 ↔ c = Char.ofNat 12 := ⟨fun h => by rw [← h, Char.ofNat_toNat], fun h => by subst h; rfl⟩
  simp only [isSpaceC, Blank, Bool.or_eq_true, decide_eq_true_eq, h11, h12, List.mem_cons, List.not_mem_nil, or_false, or_assoc]

theorem dropWhile_blank (p : Char → Bool) (a w : List Char) (ha : ∀ c ∈ a, p c = true) (hw : ∀ c, w.head? = some c → p c = false) :
    (a ++ w).dropWhile p = w := by
  induction a with
  | nil =>
    cases w with
    | nil => rfl
    | cons x w => simp [hw x rfl]
  | cons x a ih =>
    rw [List.cons_append, List.dropWhile_cons, if_pos (ha x (by simp))]
    exact ih (fun c hc => ha c (by simp [hc]))

theorem dropWhile_split (p : Char → Bool) (l : List Char) : ∃ a, l = a ++ l.dropWhile p ∧ ∀ c ∈ a, p c = true := by
  refine ⟨l.takeWhile p, (List.takeWhile_append_dropWhile).symm, ?_⟩
  intro c hc
  exact List.mem_takeWhile_imp hc

/-- trimming a part gives a word without surrounding white space -/
theorem trim_iff (p w : List Char) (hw : w ≠ []) (hb : ∀ c ∈ w, isSpaceC c = false) : trimSpace p = w ↔ WordIn p w := by
  constructor
  · intro h
    unfold trimSpace at h
    obtain ⟨a, ha, ha'⟩ := dropWhile_split isSpaceC p
    obtain ⟨b, hb, hb'⟩ := dropWhile_split isSpaceC (p.dropWhile isSpaceC).reverse
    have h2 : ((p.dropWhile isSpaceC).reverse.dropWhile isSpaceC) = w.reverse := by rw [← h, List.reverse_reverse]
    rw [h2] at hb
    have h3 : p.dropWhile isSpaceC = w ++ b.reverse := by
      have := congrArg List.reverse hb
      simpa using this
    refine ⟨a, b.reverse, ?_, fun c hc => (isSpaceC_iff c).1 (ha' c hc), fun c hc => (isSpaceC_iff c).1 (hb' c (by simpa using hc))⟩
    rw [h3] at ha
    rw [List.append_assoc]
    exact ha
  · rintro ⟨a, b, rfl, ha, hb'⟩
    unfold trimSpace
    have h1 : (a ++ w ++ b).dropWhile isSpaceC = w ++ b := by
      rw [List.append_assoc]
      apply dropWhile_blank _ _ _ (fun c hc => (isSpaceC_iff c).2 (ha c hc))
      intro c hc
      cases w with
      | nil => exact absurd rfl hw
      | cons x w => simp at hc; subst hc; exact hb x (by simp)
    rw [h1, List.reverse_append]
    rw [dropWhile_blank _ _ _ (fun c hc => (isSpaceC_iff c).2 (hb' c (by simpa using hc))), List.reverse_reverse]
    intro c hc
    rw [List.head?_reverse] at hc
    exact hb c (List.mem_of_getLast? hc)

/-- The options recognized are words. -/
theorem binaryOpt_iff (p : List Char) : (trimSpace p = "binary".toList ∨ trimSpace p = "#".toList) ↔ BinaryOpt p := by
  unfold BinaryOpt
  rw [trim_iff p "binary".toList (by decide) (by decide), trim_iff p "#".toList (by decide) (by decide)]

theorem multiOpt_iff (p : List Char) : trimSpace p = "multiyaml".toList ↔ MultiOpt p := by
  unfold MultiOpt
  rw [trim_iff p "multiyaml".toList (by decide) (by decide)]

theorem opt_disjoint (p : List Char) (hb : BinaryOpt p) (hm : MultiOpt p) : False := by
  have hm' := (multiOpt_iff p).2 hm
  rcases (binaryOpt_iff p).2 hb with h | h <;> rw [h] at hm' <;> revert hm' <;> decide

/-- the loop over the options: the others are left, in order -/
theorem scanOpts_spec (ps : List (List Char)) (w : WriteOpts) :
    (scanOpts ps w).1.Sublist ps ∧ (∀ p ∈ (scanOpts ps w).1, ¬ BinaryOpt p ∧ ¬ MultiOpt p) ∧
    (∀ p ∈ ps, p ∈ (scanOpts ps w).1 ∨ BinaryOpt p ∨ MultiOpt p) ∧
    ((scanOpts ps w).2.binary = true ↔ w.binary = true ∨ ∃ p ∈ ps, BinaryOpt p) ∧
    ((scanOpts ps w).2.multi = true ↔ w.multi = true ∨ ∃ p ∈ ps, MultiOpt p) ∧ (scanOpts ps w).2.perm = w.perm := by
  induction ps generalizing w with
  | nil => simp [scanOpts]
  | cons o r ih =>
    rw [scanOpts]
    by_cases h1 : BinaryOpt o
    · rw [if_pos ((binaryOpt_iff o).2 h1)]
      obtain ⟨a, b, c, d, e, f⟩ := ih { w with binary := true }
      refine ⟨a.cons o, b, ?_, ?_, ?_, f⟩
      · intro p hp
        rcases List.mem_cons.1 hp with rfl | hp
        · exact .inr (.inl h1)
        · exact c p hp
      · rw [d]; simp [h1]
      · rw [e]
        have : ¬ MultiOpt o := fun h => opt_disjoint o h1 h
        simp [this]
    · rw [if_neg (fun h => h1 ((binaryOpt_iff o).1 h))]
      by_cases h2 : MultiOpt o
      · rw [if_pos ((multiOpt_iff o).2 h2)]
        obtain ⟨a, b, c, d, e, f⟩ := ih { w with multi := true }
        refine ⟨a.cons o, b, ?_, ?_, ?_, f⟩
        · intro p hp
          rcases List.mem_cons.1 hp with rfl | hp
          · exact .inr (.inr h2)
          · exact c p hp
        · rw [d]; simp [h1]
        · rw [e]; simp [h2]
      · rw [if_neg (fun h => h2 ((multiOpt_iff o).1 h))]
        obtain ⟨a, b, c, d, e, f⟩ := ih w
        refine ⟨a.cons_cons o, ?_, ?_, ?_, ?_, f⟩
        · intro p hp
          rcases List.mem_cons.1 hp with rfl | hp
          · exact ⟨h1, h2⟩
          · exact b p hp
        · intro p hp
          rcases List.mem_cons.1 hp with rfl | hp
          · exact .inl (by simp)
          · rcases c p hp with h | h
            · exact .inl (by simp [h])
            · exact .inr h
        · rw [d]; simp [h1]
        · rw [e]; simp [h2]

open Classical in
theorem scanOpts_filter (ps : List (List Char)) (w : WriteOpts) :
    (scanOpts ps w).1 = ps.filter (fun x => decide (¬ (BinaryOpt x ∨ MultiOpt x))) := by
  induction ps generalizing w with
  | nil => rfl
  | cons o r ih =>
    rw [scanOpts, List.filter_cons]
    by_cases h1 : BinaryOpt o
    · rw [if_pos ((binaryOpt_iff o).2 h1), ih]; simp [h1]
    · rw [if_neg (fun h => h1 ((binaryOpt_iff o).1 h))]
      by_cases h2 : MultiOpt o
      · rw [if_pos ((multiOpt_iff o).2 h2), ih]; simp [h2]
      · rw [if_neg (fun h => h2 ((multiOpt_iff o).1 h)), ih]; simp [h1, h2]

/-- numbers with an optional sign -/
theorem parseIntBase_iff (b : Nat) (s : List Char) (i : Int) : parseIntBase b s = some i ↔
    (∃ n, Numeral b s n ∧ n < 2^63 ∧ i = n) ∨ (∃ r n, s = '+' :: r ∧ Numeral b r n ∧ n < 2^63 ∧ i = n) ∨
    (∃ r n, s = '-' :: r ∧ Numeral b r n ∧ n ≤ 2^63 ∧ i = -(n : Int)) := by
  have sgn : ∀ (neg : Bool) (r : List Char), (if r = [] then none else signedInt neg (goDigits b 0 r)) = some i ↔
      ∃ n, Numeral b r n ∧ ((n < 2^63 ∧ i = if neg then -(n : Int) else n) ∨ (neg = true ∧ n = 2^63 ∧ i = -(2^63))) := by
    intro neg r
    by_cases hr : r = []
    · subst hr
      simp only [if_true]
      constructor
      · intro h; cases h
      · rintro ⟨n, h, _⟩; exact absurd h (numeral_ne b n)
    · rw [if_neg hr]
      constructor
      · intro h
        cases hg : goDigits b 0 r with
        | none => rw [hg] at h; simp [signedInt] at h
        | some n =>
          rw [hg] at h
          refine ⟨n, (goDigits_iff b r n).1 ⟨hr, hg⟩, ?_⟩
          unfold signedInt at h
          split at h
          · cases h
          · rename_i m hm
            cases hm
            split at h
            · rename_i hlt; left; exact ⟨hlt, (Option.some.inj h).symm⟩
            · split at h
              · rename_i hn; right; exact ⟨hn.1, hn.2, (Option.some.inj h).symm⟩
              · cases h
      · rintro ⟨n, hn, h⟩
        rw [((goDigits_iff b r n).2 hn).2]
        unfold signedInt
        simp only
        rcases h with ⟨h1, h2⟩ | ⟨h1, h2, h3⟩
        · rw [if_pos h1, h2]
        · rw [if_neg (by rw [h2]; exact Nat.lt_irrefl _), if_pos ⟨h1, h2⟩, h3]
  have hsign : ∀ c, c = '+' ∨ c = '-' → ∀ r n, ¬ Numeral b (c :: r) n := by
    intro c hc r n h
    obtain ⟨d, hd, _⟩ := goDigits_head _ _ _ _ _ ((goDigits_iff _ _ _).2 h).2
    rcases hc with rfl | rfl
    · have : goDigit '+' = none := by decide
      rw [this] at hd; cases hd
    · have : goDigit '-' = none := by decide
      rw [this] at hd; cases hd
  unfold parseIntBase
  split
  · rename_i r
    rw [sgn true r]
    constructor
    · rintro ⟨n, hn, h⟩
      refine .inr (.inr ⟨r, n, rfl, hn, ?_⟩)
      rcases h with ⟨h1, h2⟩ | ⟨_, h2, h3⟩
      · exact ⟨Nat.le_of_lt h1, h2⟩
      · exact ⟨Nat.le_of_eq h2, by rw [h3, h2]; rfl⟩
    · rintro (⟨n, hn, _⟩ | ⟨r', n, h, _⟩ | ⟨r', n, h, hn, hl, rfl⟩)
      · exact absurd hn (hsign _ (.inr rfl) _ _)
      · cases h
      · cases h
        refine ⟨n, hn, ?_⟩
        rcases Nat.lt_or_eq_of_le hl with h | h
        · exact .inl ⟨h, rfl⟩
        · exact .inr ⟨rfl, h, by rw [h]; rfl⟩
  · rename_i r
    rw [sgn false r]
    constructor
    · rintro ⟨n, hn, h⟩
      refine .inr (.inl ⟨r, n, rfl, hn, ?_⟩)
      rcases h with ⟨h1, h2⟩ | ⟨h2, _⟩
      · exact ⟨h1, h2⟩
      · cases h2
    · rintro (⟨n, hn, _⟩ | ⟨r', n, h, hn, hl, rfl⟩ | ⟨r', n, h, _⟩)
      · exact absurd hn (hsign _ (.inl rfl) _ _)
      · cases h; exact ⟨n, hn, .inl ⟨hl, rfl⟩⟩
      · cases h
  · rename_i h1 h2
    rw [sgn false s]
    constructor
    · rintro ⟨n, hn, h⟩
      refine .inl ⟨n, hn, ?_⟩
      rcases h with ⟨h1, h2⟩ | ⟨h2, _⟩
      · exact ⟨h1, h2⟩
      · cases h2
    · rintro (⟨n, hn, hl, rfl⟩ | ⟨r', n, h, _⟩ | ⟨r', n, h, _⟩)
      · exact ⟨n, hn, .inl ⟨hl, rfl⟩⟩
      · exact absurd h (h2 r')
      · exact absurd h (h1 r')

/-- the text of permissions -/
theorem permText_iff (v : List Char) (i : Int) : parseIntBase (if ['0'].isPrefixOf v then 8 else 10) v = some i ↔ PermText v i := by
  by_cases h0 : ∃ r, v = '0' :: r
  · obtain ⟨r, rfl⟩ := h0
    rw [if_pos (by simp), parseIntBase_iff 8]
    constructor
    · rintro (⟨n, hn, hl, rfl⟩ | ⟨r', n, h, _⟩ | ⟨r', n, h, _⟩)
      · exact .octal r n hn hl
      · cases h
      · cases h
    · intro h
      cases h with
      | octal _ n h hn => exact .inl ⟨n, h, hn, rfl⟩
      | decimal _ n h h0 => simp at h0
  · have hp : ¬ (['0'].isPrefixOf v = true) := by
      intro h
      cases v with
      | nil => simp at h
      | cons c r => simp at h; exact h0 ⟨r, by rw [h]⟩
    rw [if_neg hp, parseIntBase_iff 10]
    constructor
    · rintro (⟨n, hn, hl, rfl⟩ | ⟨r', n, rfl, hn, hl, rfl⟩ | ⟨r', n, rfl, hn, hl, rfl⟩)
      · refine .decimal v n hn ?_ hl
        intro h
        cases v with
        | nil => cases h
        | cons c r => simp at h; exact h0 ⟨r, by rw [h]⟩
      · exact .plus r' n hn hl
      · exact .minus r' n hn hl
    · intro h
      cases h with
      | octal r n h hn => exact absurd ⟨r, rfl⟩ h0
      | decimal _ n h h0 hn => exact .inl ⟨n, h, hn, rfl⟩
      | plus r n h hn => exact .inr (.inl ⟨r, n, rfl, h, hn, rfl⟩)
      | minus r n h hn => exact .inr (.inr ⟨r, n, rfl, h, hn, rfl⟩)

theorem permText_chars (v : List Char) (i : Int) (h : PermText v i) : v ≠ [] ∧ ∀ c r, v = c :: r → c ≠ 'b' ∧ c ≠ '#' ∧ c ≠ 'm' ∧ ¬ Blank c := by
  have hd : ∀ b, b ≤ 10 → ∀ c r n, Numeral b (c :: r) n → c ≠ 'b' ∧ c ≠ '#' ∧ c ≠ 'm' ∧ ¬ Blank c := by
    intro b hb c r n h
    obtain ⟨d, hd, hlt⟩ := goDigits_head _ _ _ _ _ ((goDigits_iff _ _ _).2 h).2
    refine ⟨?_, ?_, ?_, ?_⟩
    · rintro rfl; have : goDigit 'b' = some 11 := by decide
      rw [this] at hd; cases hd; omega
    · rintro rfl; have : goDigit '#' = none := by decide
      rw [this] at hd; cases hd
    · rintro rfl; have : goDigit 'm' = some 22 := by decide
      rw [this] at hd; cases hd; omega
    · intro hbl
      unfold Blank at hbl
      have hall : ∀ c ∈ [' ', '\t', '\n', '\r', Char.ofNat 11, Char.ofNat 12], goDigit c = none := by decide
      rw [hall c hbl] at hd; cases hd
  have hb : ∀ c, c = '+' ∨ c = '-' → c ≠ 'b' ∧ c ≠ '#' ∧ c ≠ 'm' ∧ ¬ Blank c := by
    intro c hc
    rcases hc with rfl | rfl <;> (unfold Blank; decide)
  cases h with
  | octal r n h hn => exact ⟨by simp, fun c r' e => by cases e; exact hd 8 (by omega) _ _ _ h⟩
  | decimal _ n h h0 hn => exact ⟨fun e => by subst e; exact numeral_ne _ _ h, fun c r' e => by subst e; exact hd 10 (by omega) _ _ _ h⟩
  | plus r n h hn => exact ⟨by simp, fun c r' e => by cases e; exact hb _ (.inl rfl)⟩
  | minus r n h hn => exact ⟨by simp, fun c r' e => by cases e; exact hb _ (.inr rfl)⟩

/-- permissions are no other option -/
theorem permText_other (v : List Char) (i : Int) (h : PermText v i) : ¬ BinaryOpt v ∧ ¬ MultiOpt v := by
  obtain ⟨hne, hc⟩ := permText_chars v i h
  have key : ∀ x xs, (x = 'b' ∨ x = '#' ∨ x = 'm') → ¬ WordIn v (x :: xs) := by
    rintro x xs hx ⟨a, b, e, ha, _⟩
    cases a with
    | nil =>
      have := hc x (xs ++ b) (by rw [e]; simp)
      rcases hx with rfl | rfl | rfl
      · exact this.1 rfl
      · exact this.2.1 rfl
      · exact this.2.2.1 rfl
    | cons y a =>
      have := hc y (a ++ (x :: xs) ++ b) (by rw [e]; simp)
      exact this.2.2.2 (ha y (by simp))
  refine ⟨?_, key 'm' _ (by simp)⟩
  rintro (h | h)
  · exact key 'b' _ (by simp) h
  · exact key '#' _ (by simp) h

open Classical in
/-- **Options** (dynaml/write.go): exactly the described texts are accepted, and they mean what is described. -/
theorem options_iff (d : Int) (v : Val E) (w : WriteOpts) : getWriteOptions v ⟨false, false, d⟩ false = some w ↔ OptionsOf d v w := by
  have hopt : getWriteOptions v ⟨false, false, d⟩ false = readOpts ⟨false, false, d⟩ v := by
    unfold getWriteOptions
    cases readOpts ⟨false, false, d⟩ v <;> simp
  rw [hopt]
  cases v with
  | str s =>
    simp only [readOpts]
    have hs := scanOpts_spec (splitCh ',' s.toList) ⟨false, false, d⟩
    have hp := splitCh_parts ',' s.toList
    obtain ⟨h1, h2, h3, h4, h5, h6⟩ := hs
    simp only [Bool.false_eq_true, false_or] at h4 h5
    constructor
    · intro h
      rcases hsc : scanOpts (splitCh ',' s.toList) ⟨false, false, d⟩ with ⟨rest, w'⟩
      rw [hsc] at h h1 h2 h3 h4 h5 h6
      simp only at h1 h2 h3 h4 h5 h6
      rcases w' with ⟨b, m, pm⟩
      simp only at h4 h5 h6
      match rest, h with
      | [], h =>
        simp only [permOpt, Option.some.injEq] at h
        subst h
        subst h6
        refine .words s _ b m hp h4 h5 ?_
        intro p hpm
        rcases h3 p hpm with h | h
        · simp at h
        · exact h
      | [p], h =>
        simp only [permOpt, Option.map_eq_some_iff] at h
        obtain ⟨i, hi, rfl⟩ := h
        rw [permText_iff] at hi
        have hno := permText_other p i hi
        have hmem : p ∈ splitCh ',' s.toList := h1.subset (by simp)
        obtain ⟨bf, af, e⟩ := List.append_of_mem hmem
        rw [e] at hp h4 h5 h3 h1
        refine .both s bf af p b m i hp h4 h5 ?_ hi
        -- the other parts are recognized, because only one part is left
        have hcount : ∀ q ∈ bf ++ af, BinaryOpt q ∨ MultiOpt q := by
          intro q hq
          have hl : ((bf ++ p :: af).filter (fun x => decide (¬ (BinaryOpt x ∨ MultiOpt x)))) = [p] := by
            have hrest : (scanOpts (splitCh ',' s.toList) ⟨false, false, d⟩).1 = (splitCh ',' s.toList).filter (fun x => decide (¬ (BinaryOpt x ∨ MultiOpt x))) := by
              exact scanOpts_filter _ _
            rw [hsc, e] at hrest
            exact hrest.symm
          rw [List.filter_append, List.filter_cons] at hl
          simp only [hno.1, hno.2, or_self, not_false_eq_true, decide_true, if_true] at hl
          have hlen := congrArg List.length hl
          simp only [List.length_append, List.length_cons, List.length_nil] at hlen
          have e1 : (bf.filter (fun x => decide (¬ (BinaryOpt x ∨ MultiOpt x)))) = [] := List.length_eq_zero_iff.1 (by omega)
          have e2 : (af.filter (fun x => decide (¬ (BinaryOpt x ∨ MultiOpt x)))) = [] := List.length_eq_zero_iff.1 (by omega)
          rw [List.filter_eq_nil_iff] at e1 e2
          rcases List.mem_append.1 hq with hq | hq
          · have := e1 q hq; rw [decide_eq_true_eq] at this; exact Classical.byContradiction this
          · have := e2 q hq; rw [decide_eq_true_eq] at this; exact Classical.byContradiction this
        exact hcount
      | _ :: _ :: _, h => simp [permOpt] at h
    · intro h
      have hfil := scanOpts_filter (splitCh ',' s.toList) ⟨false, false, d⟩
      rcases hsc : scanOpts (splitCh ',' s.toList) ⟨false, false, d⟩ with ⟨rest, w'⟩
      rw [hsc] at h4 h5 h6 hfil
      simp only at h4 h5 h6 hfil
      rcases w' with ⟨b', m', pm⟩
      simp only at h4 h5 h6
      subst h6
      cases h with
      | words _ ps b m hps hb hm h =>
        rw [parts_iff] at hps
        subst hps
        have hb' : b' = b := by rw [Bool.eq_iff_iff, h4, hb]
        have hm' : m' = m := by rw [Bool.eq_iff_iff, h5, hm]
        have : rest = [] := by
          rw [hfil, List.filter_eq_nil_iff]
          intro p hp; simp [h p hp]
        subst this hb' hm'
        rfl
      | both _ bf af p b m i hps hb hm h hi =>
        rw [parts_iff] at hps
        rw [← hps] at h4 h5 hfil
        have hb' : b' = b := by rw [Bool.eq_iff_iff, h4, hb]
        have hm' : m' = m := by rw [Bool.eq_iff_iff, h5, hm]
        have hno := permText_other p i hi
        have : rest = [p] := by
          rw [hfil, List.filter_append, List.filter_cons]
          have e1 : (bf.filter (fun x => decide (¬ (BinaryOpt x ∨ MultiOpt x)))) = [] := by
            rw [List.filter_eq_nil_iff]; intro q hq; simp [h q (by simp [hq])]
          have e2 : (af.filter (fun x => decide (¬ (BinaryOpt x ∨ MultiOpt x)))) = [] := by
            rw [List.filter_eq_nil_iff]; intro q hq; simp [h q (by simp [hq])]
          rw [e1, e2]
          simp [hno.1, hno.2]
        subst this hb' hm'
        simp only [permOpt]
        rw [(permText_iff p i).2 hi]
        rfl
  | int i =>
    simp only [readOpts, Option.some.injEq]
    constructor
    · rintro rfl; exact .perm i
    · intro h; cases h; rfl
  | _ => simp only [readOpts]; constructor <;> (intro h; cases h)

/-- where only permissions are allowed -/
theorem perm_options_iff (d : Int) (v : Val E) (w : WriteOpts) :
    getWriteOptions v ⟨false, false, d⟩ true = some w ↔ OptionsOf d v w ∧ w.binary = false ∧ w.multi = false := by
  rw [← options_iff]
  unfold getWriteOptions
  cases readOpts ⟨false, false, d⟩ v with
  | none => simp
  | some x =>
    rcases x with ⟨b, m, p⟩
    cases b <;> cases m <;> simp <;> (intro h; subst h; simp)

/-! ### names -/

theorem taggedName_removeTags (t : List Char) : ∃ tags, TaggedName t tags (removeTags t) := by
  induction t with
  | nil => exact ⟨[], by simp, .inr ⟨rfl, by simp [removeTags]⟩⟩
  | cons c r ih =>
    obtain ⟨tags, h1, h2⟩ := ih
    unfold removeTags
    by_cases hc : c = ':'
    · subst hc
      exact ⟨[], by simp, .inl (by simp)⟩
    · by_cases hs : c = '*' ∨ c = '#'
      · have hs' : c = '*' ∨ c = '#' ∨ c = ':' := by rcases hs with h | h <;> simp [h]
        rw [if_pos hs', if_neg hc]
        refine ⟨c :: tags, ?_, ?_⟩
        · intro x hx
          rcases List.mem_cons.1 hx with rfl | hx
          · exact hs
          · exact h1 x hx
        · rcases h2 with h | ⟨h, h'⟩
          · exact .inl (by rw [List.cons_append, ← h])
          · exact .inr ⟨by rw [List.cons_append, ← h], h'⟩
      · have hs' : ¬ (c = '*' ∨ c = '#' ∨ c = ':') := by
          rintro (h | h | h)
          · exact hs (.inl h)
          · exact hs (.inr h)
          · exact hc h
        rw [if_neg hs']
        refine ⟨[], by simp, .inr ⟨rfl, ?_⟩⟩
        intro x hx
        simp at hx; subst hx
        exact ⟨fun h => hs (.inl h), fun h => hs (.inr h), hc⟩

/-- tags and name are determined by the text -/
theorem taggedName_unique (t a b n m : List Char) (h : TaggedName t a n) (h' : TaggedName t b m) : a = b ∧ n = m := by
  induction a generalizing t b with
  | nil =>
    obtain ⟨_, h⟩ := h
    obtain ⟨hb, h'⟩ := h'
    cases b with
    | nil =>
      refine ⟨rfl, ?_⟩
      rcases h with h | ⟨h, hh⟩ <;> rcases h' with h' | ⟨h', hh'⟩
      · rw [h] at h'; simpa using h'
      · rw [h] at h'; simp at h'; subst h'; exact absurd rfl (hh' ':' rfl).2.2
      · rw [h] at h'; simp at h'; subst h'; exact absurd rfl (hh ':' rfl).2.2
      · rw [h] at h'; simpa using h'
    | cons x b =>
      have hx := hb x (by simp)
      have ht : ∃ y, t = x :: y := by
        rcases h' with h' | ⟨h', _⟩ <;> exact ⟨_, by rw [h']; rfl⟩
      obtain ⟨y, ht⟩ := ht
      rcases h with h | ⟨h, hh⟩
      · rw [h] at ht; simp at ht; obtain ⟨rfl, _⟩ := ht; simp at hx
      · rw [h] at ht; simp at ht; subst ht
        have := hh x rfl
        rcases hx with hx | hx
        · exact absurd hx this.1
        · exact absurd hx this.2.1
  | cons x a ih =>
    obtain ⟨ha, h⟩ := h
    have hx := ha x (by simp)
    have ht : ∃ y, t = x :: y ∧ (y = a ++ ':' :: n ∨ y = a ++ n ∧ ∀ c, n.head? = some c → c ≠ '*' ∧ c ≠ '#' ∧ c ≠ ':') := by
      rcases h with h | ⟨h, h2⟩
      · exact ⟨_, by rw [h]; rfl, .inl rfl⟩
      · exact ⟨_, by rw [h]; rfl, .inr ⟨rfl, h2⟩⟩
    obtain ⟨y, rfl, hy⟩ := ht
    obtain ⟨hb, h'⟩ := h'
    cases b with
    | nil =>
      rcases h' with h' | ⟨h', hh⟩
      · simp at h'; obtain ⟨rfl, _⟩ := h'; simp at hx
      · simp at h'; subst h'
        have := hh x rfl
        rcases hx with hx | hx
        · exact absurd hx this.1
        · exact absurd hx this.2.1
    | cons z b =>
      have hz : z = x ∧ (y = b ++ ':' :: m ∨ y = b ++ m ∧ ∀ c, m.head? = some c → c ≠ '*' ∧ c ≠ '#' ∧ c ≠ ':') := by
        rcases h' with h' | ⟨h', h2⟩
        · simp at h'; exact ⟨h'.1.symm, .inl h'.2⟩
        · simp at h'; exact ⟨h'.1.symm, .inr ⟨h'.2, h2⟩⟩
      obtain ⟨rfl, hy'⟩ := hz
      obtain ⟨e1, e2⟩ := ih y b ⟨fun c hc => ha c (by simp [hc]), hy⟩ ⟨fun c hc => hb c (by simp [hc]), hy'⟩
      exact ⟨by rw [e1], e2⟩

/-- **Tags of file names**: what is removed and what is recognized. -/
theorem tags_iff (t tags name : List Char) (h : TaggedName t tags name) :
    removeTags t = name ∧ ∀ c, c = '*' ∨ c = '#' → (hasTag c t = true ↔ c ∈ tags) := by
  constructor
  · obtain ⟨tags', h'⟩ := taggedName_removeTags t
    exact (taggedName_unique _ _ _ _ _ h' h).2
  · intro c hc
    induction tags generalizing t with
    | nil =>
      simp only [List.not_mem_nil, iff_false, Bool.not_eq_true]
      obtain ⟨_, h⟩ := h
      rcases h with h | ⟨h, hh⟩
      · rw [h]; simp [hasTag]
      · rw [h, List.nil_append]
        cases name with
        | nil => rfl
        | cons x r =>
          have := hh x rfl
          unfold hasTag
          by_cases hx : x = '-'
          · subst hx
            rw [if_pos (by simp), if_neg (by rcases hc with rfl | rfl <;> decide), if_pos rfl]
          · rw [if_neg (by simp [this, hx])]
    | cons x a ih =>
      obtain ⟨ha, h⟩ := h
      have hx := ha x (by simp)
      have ht : ∃ y, t = x :: y ∧ TaggedName y a name := by
        have ha' : ∀ c ∈ a, c = '*' ∨ c = '#' := fun c hc => ha c (by simp [hc])
        rcases h with h | ⟨h, h2⟩
        · exact ⟨_, by rw [h]; rfl, ha', .inl rfl⟩
        · exact ⟨_, by rw [h]; rfl, ha', .inr ⟨rfl, h2⟩⟩
      obtain ⟨y, rfl, hy⟩ := ht
      unfold hasTag
      rw [if_pos (by rcases hx with h | h <;> simp [h])]
      by_cases hxc : x = c
      · simp [hxc]
      · rw [if_neg hxc, if_neg (by rcases hx with rfl | rfl <;> decide), ih y hy, List.mem_cons]
        simp [Ne.symm hxc]

theorem hasPrefix_append (f p : String) : hasPrefix f p = true ↔ ∃ r, f = p ++ r := by
  rw [hasPrefix_iff]
  constructor
  · rintro ⟨r, h⟩; exact ⟨String.ofList r, String.toList_injective (by simp [h])⟩
  · rintro ⟨r, rfl⟩; exact ⟨r.toList, by simp⟩

theorem filePath_iff (home f g : String) : filePath home f = g ↔ Expanded home f g := by
  unfold filePath Expanded
  by_cases hp : hasPrefix f "~/" = true
  · have hr : ∃ r, f = "~/" ++ r := (hasPrefix_append f "~/").1 hp
    obtain ⟨r, rfl⟩ := hr
    by_cases hh : home = ""
    · subst hh
      simp [eq_comm]
    · simp only [hp, hh, ne_eq, not_false_eq_true, decide_true, Bool.and_true, if_true, false_or, true_and]
      have e : String.ofList (("~/" ++ r).toList.drop 1) = "/" ++ r := by
        apply String.toList_injective
        simp
      rw [e]
      constructor
      · rintro rfl
        exact .inl ⟨r, rfl, by rw [String.append_assoc]⟩
      · rintro (⟨r', h1, h2⟩ | ⟨h, _⟩)
        · have : r' = r := by
            have := congrArg String.toList h1
            simp at this
            exact String.toList_injective this.symm
          rw [h2, this, String.append_assoc]
        · exact absurd ⟨r, rfl⟩ h
  · have hr : ¬ ∃ r, f = "~/" ++ r := fun h => hp ((hasPrefix_append f "~/").2 h)
    simp only [hp, Bool.false_and, Bool.false_eq_true, if_false]
    constructor
    · rintro rfl; exact .inr ⟨.inr hr, rfl⟩
    · rintro (⟨r, h, _⟩ | ⟨_, h⟩)
      · exact absurd ⟨r, h⟩ hr
      · exact h.symm

/-- the file meant by a name with tags -/
theorem fileNamed_iff (home t g : String) : filePath home (String.ofList (removeTags t.toList)) = g ↔ ∃ tags, FileNamed home t tags g := by
  rw [filePath_iff]
  constructor
  · intro h
    obtain ⟨tags, ht⟩ := taggedName_removeTags t.toList
    exact ⟨tags, _, ht, h⟩
  · rintro ⟨tags, name, ht, h⟩
    rwa [(tags_iff _ _ _ ht).1]

/-! ### contents -/

theorem b64Decode_nil : b64Decode [] = some [] := rfl

theorem getData_written (L : IoLib E) (file : String) (tags : List Char) (g : String) (w : WriteOpts) (v : Val E) (raw : String) (d : List Nat)
    (hf : FileNamed L.home file tags g) :
    ((getData L file w v).1 = g) ∧ ((getData L file w v).2.1 = raw ∧ (getData L file w v).2.2.1 = d ↔ Written L w tags v raw d) ∧
    ((getData L file w v).2.2.2 = true ∧ (getData L file w v).2.1 = raw ∧ (getData L file w v).2.2.1 = d ↔
      (DataText L w.multi v raw ∧ BytesOf (WantsBinary w tags v) raw d) ∨
      ((¬ ∃ t, DataText L w.multi v t) ∧ w.binary = true ∧ raw = "" ∧ d = [])) := by
  have hname : filePath L.home (String.ofList (removeTags file.toList)) = g := (fileNamed_iff _ _ _).2 ⟨tags, hf⟩
  have htag : hasTag '#' file.toList = true ↔ '#' ∈ tags := by
    obtain ⟨name, ht, _⟩ := hf
    exact (tags_iff _ _ _ ht).2 '#' (.inr rfl)
  have hbin : (w.binary || ((getArg L w.multi true v).isStr && hasTag '#' file.toList)) = true ↔ WantsBinary w tags v := by
    unfold WantsBinary
    rw [Bool.or_eq_true, Bool.and_eq_true, getArg_isStr, htag]
  have hu : utf8Bytes "" = [] := rfl
  refine ⟨?_, ?_, ?_⟩
  · unfold getData
    simp only
    split
    · split <;> exact hname
    · exact hname
  · cases hok : (getArg L w.multi true v).ok with
    | true =>
      have hto : ∀ t, DataText L w.multi v t ↔ t = (getArg L w.multi true v).text := by
        intro t; rw [← getArg_iff, hok]; simp [eq_comm]
      unfold getData
      simp only
      by_cases hb : WantsBinary w tags v
      · rw [if_pos (hbin.2 hb)]
        cases hd : b64Decode (getArg L w.multi true v).text.toList with
        | some x =>
          simp only
          constructor
          · rintro ⟨rfl, rfl⟩; exact .regular _ _ ((hto _).2 rfl) (.inl ⟨hb, hd⟩)
          · intro h
            cases h with
            | regular _ _ ht h' =>
              rw [hto] at ht; subst ht
              rcases h' with ⟨_, h'⟩ | ⟨h', _⟩
              · rw [hd] at h'; exact ⟨rfl, Option.some.inj h'⟩
              · exact absurd hb h'
            | noBase64 _ ht _ h' => rw [hto] at ht; subst ht; rw [hd] at h'; cases h'
            | noText h' => exact absurd ⟨_, (hto _).2 rfl⟩ h'
        | none =>
          simp only
          constructor
          · rintro ⟨rfl, rfl⟩; exact .noBase64 _ ((hto _).2 rfl) hb hd
          · intro h
            cases h with
            | regular _ _ ht h' =>
              rw [hto] at ht; subst ht
              rcases h' with ⟨_, h'⟩ | ⟨h', _⟩
              · rw [hd] at h'; cases h'
              · exact absurd hb h'
            | noBase64 _ ht _ h' => rw [hto] at ht; subst ht; exact ⟨rfl, rfl⟩
            | noText h' => exact absurd ⟨_, (hto _).2 rfl⟩ h'
      · rw [if_neg (fun h => hb (hbin.1 h))]
        constructor
        · rintro ⟨rfl, rfl⟩; exact .regular _ _ ((hto _).2 rfl) (.inr ⟨hb, rfl⟩)
        · intro h
          cases h with
          | regular _ _ ht h' =>
            rw [hto] at ht; subst ht
            rcases h' with ⟨h', _⟩ | ⟨_, h'⟩
            · exact absurd h' hb
            · exact ⟨rfl, h'.symm⟩
          | noBase64 _ ht h' => exact absurd h' hb
          | noText h' => exact absurd ⟨_, (hto _).2 rfl⟩ h'
    | false =>
      have hno := (getArg_none L w.multi v).1 hok
      obtain ⟨he, hs⟩ := getArg_fail L w.multi true v hok
      have hl : (getData L file w v).2.1 = "" ∧ (getData L file w v).2.2.1 = [] := by
        unfold getData
        simp only [he]
        split
        · rw [String.toList_empty, b64Decode_nil]; exact ⟨rfl, rfl⟩
        · exact ⟨rfl, hu⟩
      rw [hl.1, hl.2]
      constructor
      · rintro ⟨rfl, rfl⟩; exact .noText hno
      · intro h
        cases h with
        | regular _ _ ht => exact absurd ⟨_, ht⟩ hno
        | noBase64 _ ht => exact absurd ⟨_, ht⟩ hno
        | noText => exact ⟨rfl, rfl⟩
  · cases hok : (getArg L w.multi true v).ok with
    | true =>
      have hto : ∀ t, DataText L w.multi v t ↔ t = (getArg L w.multi true v).text := by
        intro t; rw [← getArg_iff, hok]; simp [eq_comm]
      have hex : ∃ t, DataText L w.multi v t := ⟨_, (hto _).2 rfl⟩
      have hexf : (¬ ∃ t, DataText L w.multi v t) = False := by simp [hex]
      rw [hexf]
      simp only [false_and, or_false, hto]
      unfold getData BytesOf
      simp only
      by_cases hb : WantsBinary w tags v
      · rw [if_pos (hbin.2 hb)]
        simp only [hb, true_and, not_true_eq_false, false_and, or_false]
        cases hd : b64Decode (getArg L w.multi true v).text.toList with
        | some x =>
          simp only [true_and]
          constructor
          · rintro ⟨rfl, rfl⟩; exact ⟨rfl, hd⟩
          · rintro ⟨rfl, h⟩; rw [hd] at h; exact ⟨rfl, Option.some.inj h⟩
        | none =>
          simp only [Bool.false_eq_true, false_and, false_iff]
          rintro ⟨rfl, h⟩; rw [hd] at h; cases h
      · rw [if_neg (fun h => hb (hbin.1 h))]
        simp only [hok, hb, false_and, not_false_eq_true, true_and, false_or]
        constructor
        · rintro ⟨rfl, rfl⟩; exact ⟨rfl, rfl⟩
        · rintro ⟨rfl, rfl⟩; exact ⟨rfl, rfl⟩
    | false =>
      have hno := (getArg_none L w.multi v).1 hok
      obtain ⟨he, hs⟩ := getArg_fail L w.multi true v hok
      have hno' : ∀ t, ¬ DataText L w.multi v t := fun t h => hno ⟨t, h⟩
      simp only [hno', false_and, exists_false, not_false_eq_true, true_and, false_or]
      unfold getData
      simp only [he, hs, Bool.false_and, Bool.or_false, hok]
      cases hwb : w.binary with
      | true =>
        simp only [if_true, String.toList_empty, b64Decode_nil, true_and]
        constructor
        · rintro ⟨rfl, rfl⟩; exact ⟨rfl, rfl⟩
        · rintro ⟨rfl, rfl⟩; exact ⟨rfl, rfl⟩
      | false => simp

/-! ### write -/

theorem optOptions_iff (d : Int) (o : Option (Val E)) (w : WriteOpts) :
    o.elim (some (⟨false, false, d⟩ : WriteOpts)) (fun o => getWriteOptions o ⟨false, false, d⟩ false) = some w ↔ OptOptionsOf d o w := by
  unfold OptOptionsOf
  cases o with
  | none => simp [eq_comm]
  | some v => simp [options_iff]

theorem writeReq_iff (L : IoLib E) (f v : Val E) (o : Option (Val E)) (r : WriteReq) (raw : String) :
    writeReq L f v o = some (r, raw) ↔ ∃ t w tags, ScalarText L f t ∧ t ≠ "" ∧ OptOptionsOf 420 o w ∧ FileNamed L.home t tags r.name ∧
      Written L w tags v raw r.data ∧ r.perm = w.perm := by
  unfold writeReq
  simp only
  constructor
  · intro h
    split at h
    · cases h
    · rename_i hc
      simp only [Bool.or_eq_true, Bool.not_eq_true', decide_eq_true_eq, not_or, Bool.not_eq_false] at hc
      split at h
      · cases h
      · rename_i w hw
        cases h
        obtain ⟨tags, ht⟩ := (fileNamed_iff L.home (getArg L false false f).text _).1 rfl
        have hg := getData_written L (getArg L false false f).text tags _ w v (getData L (getArg L false false f).text w v).2.1 (getData L (getArg L false false f).text w v).2.2.1 ht
        refine ⟨_, w, tags, (getArg_simple L false f _).1 ⟨hc.1, rfl⟩, hc.2, (optOptions_iff _ _ _).1 hw, ?_, (hg.2.1).1 ⟨rfl, rfl⟩, rfl⟩
        simp only [hg.1]
        exact ht
  · rintro ⟨t, w, tags, ht, hne, ho, hf, hw, hp⟩
    obtain ⟨h1, h2⟩ := (getArg_simple L false f t).2 ht
    subst h2
    rw [if_neg (by simp [h1, hne])]
    have := (optOptions_iff 420 o w).2 ho
    rw [this]
    have hg := getData_written L (getArg L false false f).text tags _ w v raw r.data hf
    obtain ⟨a, b⟩ := hg.2.1.2 hw
    rcases r with ⟨n, d, p⟩
    simp only at hf hw hp a b hg ⊢
    rw [hg.1, a, b, hp]

/-- **C75**: `write` requests exactly the file described: name without tags, text or decoded data, permissions. -/
theorem write_request (L : IoLib E) (allowed : Bool) (accepts : WriteReq → Bool) (args : List (Val E)) (r : WriteReq) :
    (funcWrite L allowed accepts args).1 = some r ↔ allowed = true ∧ ∃ raw, WriteSpec L args raw r := by
  have hpw : ∀ x, (performWrite (E := E) accepts x).1 = x.map (·.1) := by
    intro x; rcases x with _ | ⟨a, b⟩ <;> rfl
  have hm : ∀ x : Option (WriteReq × String), x.map (·.1) = some r ↔ ∃ raw, x = some (r, raw) := by
    intro x
    rcases x with _ | ⟨a, b⟩
    · simp
    · simp
  constructor
  · intro h
    unfold funcWrite at h
    split at h
    · cases h
    · split at h
      · cases h
      · rename_i ha
        refine ⟨by simpa using ha, ?_⟩
        split at h
        · rename_i f v _
          rw [hpw, hm] at h
          obtain ⟨raw, h⟩ := h
          obtain ⟨t, w, tags, hh⟩ := (writeReq_iff L f v none r raw).1 h
          exact ⟨raw, f, v, none, t, w, tags, rfl, hh⟩
        · rename_i f v o _
          rw [hpw, hm] at h
          obtain ⟨raw, h⟩ := h
          obtain ⟨t, w, tags, hh⟩ := (writeReq_iff L f v (some o) r raw).1 h
          exact ⟨raw, f, v, some o, t, w, tags, rfl, hh⟩
        · cases h
  · rintro ⟨ha, raw, ⟨f, v, o, t, w, tags, rfl, hh⟩⟩
    have := (writeReq_iff L f v o r raw).2 ⟨t, w, tags, hh⟩
    unfold funcWrite
    cases o with
    | none => simp [ha, hpw, this]
    | some o => simp [ha, hpw, this]

/-- **C75**: `write` yields the text of the content if the file has been written, and an error otherwise. -/
theorem write_result (L : IoLib E) (allowed : Bool) (accepts : WriteReq → Bool) (args : List (Val E)) :
    (∀ v, (funcWrite L allowed accepts args).2 = .ok v ↔
      ∃ raw r, v = .str raw ∧ allowed = true ∧ WriteSpec L args raw r ∧ accepts r = true) ∧
    ((funcWrite L allowed accepts args).2 = .err ∨ ∃ v, (funcWrite L allowed accepts args).2 = .ok v) := by
  have hp2 : ∀ x, (performWrite (E := E) accepts x).2 = .err ∨ ∃ v, (performWrite (E := E) accepts x).2 = .ok v := by
    intro x
    rcases x with _ | ⟨a, b⟩
    · exact .inl rfl
    · simp only [performWrite]; split
      · exact .inr ⟨_, rfl⟩
      · exact .inl rfl
  have hp3 : ∀ x v, (performWrite (E := E) accepts x).2 = .ok v ↔ ∃ raw r, v = .str raw ∧ x = some (r, raw) ∧ accepts r = true := by
    intro x v
    rcases x with _ | ⟨a, b⟩
    · simp [performWrite]
    · simp only [performWrite]
      constructor
      · intro h
        split at h
        · rename_i hh; cases h; exact ⟨b, a, rfl, rfl, hh⟩
        · cases h
      · rintro ⟨raw, r, rfl, h, h'⟩
        cases h
        rw [if_pos h']
  constructor
  · intro v
    constructor
    · intro h
      unfold funcWrite at h
      split at h
      · cases h
      · split at h
        · cases h
        · rename_i ha
          have ha' : allowed = true := by simpa using ha
          split at h
          · rename_i f x _
            obtain ⟨raw, r, hv, hx, hacc⟩ := (hp3 _ _).1 h
            obtain ⟨t, w, tags, hh⟩ := (writeReq_iff L f x none r raw).1 hx
            exact ⟨raw, r, hv, ha', ⟨f, x, none, t, w, tags, rfl, hh⟩, hacc⟩
          · rename_i f x o _
            obtain ⟨raw, r, hv, hx, hacc⟩ := (hp3 _ _).1 h
            obtain ⟨t, w, tags, hh⟩ := (writeReq_iff L f x (some o) r raw).1 hx
            exact ⟨raw, r, hv, ha', ⟨f, x, some o, t, w, tags, rfl, hh⟩, hacc⟩
          · cases h
    · rintro ⟨raw, r, hv, ha, ⟨f, x, o, t, w, tags, rfl, hh⟩, hacc⟩
      have := (writeReq_iff L f x o r raw).2 ⟨t, w, tags, hh⟩
      have h3 := (hp3 (some (r, raw)) v).2 ⟨raw, r, hv, rfl, hacc⟩
      unfold funcWrite
      cases o with
      | none => simp [ha, this, h3]
      | some o => simp [ha, this, h3]
  · unfold funcWrite
    split
    · exact .inl rfl
    · split
      · exact .inl rfl
      · split
        · exact hp2 _
        · exact hp2 _
        · exact .inl rfl

end Spiff
