import Verif.Spec.Certs
import Verif.Lemmas.Maps
/-
C102: the functions for certificates.
-/
namespace Spiff
open Spec

section
variable {E : Type}

theorem certField_some {m : List (String × Node E)} {name : String} {v : Val E} : certField m name = some v ↔ FieldIs m name v := by
  unfold certField FieldIs
  cases hg : mget m name with
  | none => simp
  | some n =>
    have : ∀ w, n.val = w → ((match w with | .nil => none | v => some v) = some v ↔ (∃ k, some n = some k ∧ k.val = v ∧ v ≠ .nil)) := by
      intro w hw
      cases w <;> simp [hw] <;> (try (rintro rfl; simp))
    exact this n.val rfl

theorem certField_none {m : List (String × Node E)} {name : String} : certField m name = none ↔ ∀ v, ¬ FieldIs m name v := by
  constructor
  · intro h v hv
    rw [certField_some.2 hv] at h; cases h
  · intro h
    cases hc : certField m name with
    | none => rfl
    | some v => exact absurd (certField_some.1 hc) (h v)

theorem scalarString_iff {v : Val E} {s : String} : scalarString v = some s ↔ Shows v s := by
  constructor
  · intro h
    cases v <;> simp [scalarString] at h <;> subst h
    · exact .bool _
    · exact .int _
    · exact .str _
  · intro h
    cases h <;> rfl

theorem certString_iff {m : List (String × Node E)} {name d s : String} : certString m name d = some s ↔ TextField m name d s := by
  unfold certString TextField
  cases h : certField m name with
  | none =>
    have hn := certField_none.1 h
    simp only [Option.some.injEq]
    constructor
    · exact fun e => .inl ⟨hn, e.symm⟩
    · rintro (⟨_, e⟩ | ⟨v, hv, _⟩)
      · exact e.symm
      · exact absurd hv (hn v)
  | some v =>
    have hv := certField_some.1 h
    simp only [scalarString_iff]
    constructor
    · exact fun e => .inr ⟨v, hv, e⟩
    · rintro (⟨hn, _⟩ | ⟨w, hw, e⟩)
      · exact absurd hv (hn v)
      · have := certField_some.2 hw
        rw [h] at this
        injection this with this
        exact this ▸ e

theorem scalarStrings_iff {l : List (Node E)} {ss : List String} : scalarStrings l = some ss ↔ List.Forall₂ (fun n s => Shows n.val s) l ss := by
  induction l generalizing ss with
  | nil => simp [scalarStrings, eq_comm]
  | cons n l ih =>
    rw [scalarStrings, List.forall₂_cons_left_iff]
    cases h : scalarString n.val with
    | none =>
      simp only [reduceCtorEq, false_iff]
      rintro ⟨s, _, hs, _⟩
      rw [scalarString_iff.2 hs] at h; cases h
    | some s =>
      simp only [Option.map_eq_some_iff, ih]
      constructor
      · rintro ⟨r, hr, rfl⟩
        exact ⟨s, r, scalarString_iff.1 h, hr, rfl⟩
      · rintro ⟨s', r, hs, hr, rfl⟩
        rw [scalarString_iff.2 hs] at h
        injection h with h
        exact ⟨r, hr, by rw [h]⟩

theorem certStrings_iff {m : List (String × Node E)} {name : String} {l : List String} : certStrings m name = some l ↔ TextsField m name l := by
  unfold certStrings TextsField
  cases h : certField m name with
  | none =>
    have hn := certField_none.1 h
    simp only [Option.some.injEq]
    constructor
    · exact fun e => .inl ⟨hn, e.symm⟩
    · rintro (⟨_, e⟩ | ⟨v, _, hv, _⟩ | ⟨v, hv, _⟩)
      · exact e.symm
      · exact absurd hv (hn v)
      · exact absurd hv (hn _)
  | some v =>
    have hv := certField_some.1 h
    have huniq : ∀ w, FieldIs m name w → w = v := by
      intro w hw
      have := certField_some.2 hw
      rw [h] at this
      injection this with this
      exact this.symm
    have hgen : (∀ ns, v ≠ .list ns) → ((scalarString v).map (fun s => [s]) = some l ↔ ((∀ v, ¬ FieldIs m name v) ∧ l = []) ∨ (∃ v s, FieldIs m name v ∧ Shows v s ∧ l = [s]) ∨
        ∃ ns, FieldIs m name (.list ns) ∧ List.Forall₂ (fun n s => Shows n.val s) ns l) := by
      intro hl
      simp only [Option.map_eq_some_iff, scalarString_iff]
      constructor
      · rintro ⟨s, hs, rfl⟩
        exact .inr (.inl ⟨v, s, hv, hs, rfl⟩)
      · rintro (⟨hn, _⟩ | ⟨w, s, hw, hs, rfl⟩ | ⟨ns, hw, _⟩)
        · exact absurd hv (hn v)
        · exact ⟨s, huniq w hw ▸ hs, rfl⟩
        · exact absurd (huniq _ hw).symm (hl ns)
    cases v with
    | list ns =>
      simp only [scalarStrings_iff]
      constructor
      · exact fun hf => .inr (.inr ⟨ns, hv, hf⟩)
      · rintro (⟨hn, _⟩ | ⟨w, s, hw, hs, rfl⟩ | ⟨ns', hw, hf⟩)
        · exact absurd hv (hn _)
        · rw [huniq w hw] at hs; cases hs
        · have := huniq _ hw
          injection this with this
          exact this ▸ hf
    | _ => exact hgen (fun ns => by simp)

theorem certInt_iff {m : List (String × Node E)} {name : String} {d i : Int} : certInt m name d = some i ↔ NumberField m name d i := by
  unfold certInt NumberField
  cases h : certField m name with
  | none =>
    have hn := certField_none.1 h
    simp only [Option.some.injEq]
    constructor
    · exact fun e => .inl ⟨hn, e.symm⟩
    · rintro (⟨_, e⟩ | hv | ⟨v, hv, _⟩)
      · exact e.symm
      · exact absurd hv (hn _)
      · exact absurd hv (hn _)
  | some v =>
    have hv := certField_some.1 h
    have huniq : ∀ w, FieldIs m name w → v = w := by
      intro w hw
      have := certField_some.2 hw
      rw [h] at this
      injection this
    constructor
    · intro he
      cases v <;> simp at he
      · exact .inr (.inl (he ▸ hv))
      · exact .inr (.inr ⟨_, hv, he⟩)
    · rintro (⟨hn, _⟩ | hw | ⟨s, hw, hs⟩)
      · exact absurd hv (hn _)
      · rw [huniq _ hw]
      · rw [huniq _ hw]; exact hs

theorem certBool_iff {m : List (String × Node E)} {name : String} {b : Bool} : certBool m name false = some b ↔ FlagField m name b := by
  unfold certBool FlagField
  cases h : certField m name with
  | none =>
    have hn := certField_none.1 h
    simp only [Option.some.injEq]
    constructor
    · exact fun e => .inl ⟨hn, e.symm⟩
    · rintro (⟨_, e⟩ | hv | ⟨v, hv, _⟩ | ⟨v, hv, _⟩)
      · exact e.symm
      · exact absurd hv (hn _)
      · exact absurd hv (hn _)
      · exact absurd hv (hn _)
  | some v =>
    have hv := certField_some.1 h
    have huniq : ∀ w, FieldIs m name w → v = w := by
      intro w hw
      have := certField_some.2 hw
      rw [h] at this
      injection this
    constructor
    · intro he
      cases v <;> simp at he
      · exact .inr (.inl (he ▸ hv))
      · refine .inr (.inr (.inl ⟨_, hv, ?_⟩))
        cases b <;> simp_all
      · exact .inr (.inr (.inr ⟨_, hv, he⟩))
    · rintro (⟨hn, _⟩ | hw | ⟨i, hw, hi⟩ | ⟨s, hw, hs⟩)
      · exact absurd hv (hn _)
      · rw [huniq _ hw]
      · rw [huniq _ hw]
        simp only [Option.some.injEq]
        cases b <;> simp_all
      · rw [huniq _ hw]; exact hs

end

/-! ### the template -/
section
variable {Priv Pub Cert Time IP : Type}

theorem keyUsageNames_eq : keyUsageNames = keyUsages := by decide +kernel
theorem extUsageNames_eq : extUsageNames = extUsages := by decide +kernel

theorem usageNumber_lookup (l : List (String × Nat)) (s : String) : usageNumber l s = l.lookup s := by
  induction l with
  | nil => rfl
  | cons p r ih =>
    rcases p with ⟨k, n⟩
    rw [usageNumber, List.lookup_cons, ih]
    by_cases h : k = s
    · subst h; simp
    · rw [if_neg h]
      simp [beq_eq_false_iff_ne.2 (Ne.symm h)]

theorem usageLookup_iff {l : List (String × Nat)} (hn : (l.map Prod.fst).Nodup) (s : String) (n : Nat) : l.lookup s = some n ↔ (s, n) ∈ l := by
  induction l with
  | nil => simp
  | cons p r ih =>
    rcases p with ⟨k, i⟩
    rw [List.map_cons, List.nodup_cons] at hn
    rw [List.lookup_cons]
    by_cases h : s = k
    · subst h
      simp only [beq_self_eq_true, Option.some.injEq, List.mem_cons, Prod.mk.injEq, true_and]
      constructor
      · exact fun e => .inl e.symm
      · rintro (e | e)
        · exact e.symm
        · exact absurd (List.mem_map_of_mem (f := Prod.fst) e) hn.1
    · simp only [beq_eq_false_iff_ne.2 h, ih hn.2, List.mem_cons, Prod.mk.injEq, h, false_and, false_or]

theorem keyUsage_iff (s : String) (n : Nat) : keyUsages.lookup s = some n ↔ (s, n) ∈ keyUsages := usageLookup_iff (by decide +kernel) s n
theorem extUsage_iff (s : String) (n : Nat) : extUsages.lookup s = some n ↔ (s, n) ∈ extUsages := usageLookup_iff (by decide +kernel) s n
theorem usage_disjoint (s : String) (n : Nat) (h : (s, n) ∈ extUsages) : keyUsages.lookup s = none := by
  have : ∀ p ∈ extUsages, keyUsages.lookup p.1 = none := by decide +kernel
  exact this _ h

/-- the bits and the numbers of usages -/
def keyBits (low : String → String) (k : Nat) : List String → Nat
  | [] => k
  | u :: r => keyBits low (match keyUsages.lookup (low u) with | some b => k ||| 1 <<< b | none => k) r
def extNums (low : String → String) (l : List Nat) : List String → List Nat
  | [] => l
  | u :: r => extNums low (match extUsages.lookup (low u) with | some n => if n ∈ l then l else l ++ [n] | none => l) r

theorem addUsages_eq (L : CertLib Priv Pub Cert Time IP) (us : List String) (t t' : CertTemplate Time IP) :
    addUsages L t us = some t' ↔ (∀ u ∈ us, ∃ n, (L.lower u, n) ∈ keyUsages ∨ (L.lower u, n) ∈ extUsages) ∧
      t' = { t with keyUsage := keyBits L.lower t.keyUsage us, extUsage := extNums L.lower t.extUsage us } := by
  induction us generalizing t with
  | nil => simp [addUsages, keyBits, extNums, eq_comm]
  | cons u us ih =>
    rw [addUsages, addUsage, usageNumber_lookup, usageNumber_lookup, keyUsageNames_eq, extUsageNames_eq, keyBits, extNums]
    cases hk : keyUsages.lookup (L.lower u) with
    | some b =>
      have he : extUsages.lookup (L.lower u) = none := by
        cases he : extUsages.lookup (L.lower u) with
        | none => rfl
        | some n => rw [usage_disjoint _ _ ((extUsage_iff _ _).1 he)] at hk; cases hk
      simp only [he, ih]
      constructor
      · rintro ⟨h1, h2⟩
        refine ⟨fun w hw => ?_, h2⟩
        rcases List.mem_cons.1 hw with rfl | hw
        · exact ⟨b, .inl ((keyUsage_iff _ _).1 hk)⟩
        · exact h1 w hw
      · rintro ⟨h1, h2⟩
        exact ⟨fun w hw => h1 w (List.mem_cons_of_mem _ hw), h2⟩
    | none =>
      cases he : extUsages.lookup (L.lower u) with
      | none =>
        simp only [reduceCtorEq, false_iff]
        rintro ⟨h1, _⟩
        rcases h1 u (by simp) with ⟨n, h | h⟩
        · rw [(keyUsage_iff _ _).2 h] at hk; cases hk
        · rw [(extUsage_iff _ _).2 h] at he; cases he
      | some n =>
        simp only [ih]
        have hx : (∀ w ∈ u :: us, ∃ n, (L.lower w, n) ∈ keyUsages ∨ (L.lower w, n) ∈ extUsages) ↔ (∀ w ∈ us, ∃ n, (L.lower w, n) ∈ keyUsages ∨ (L.lower w, n) ∈ extUsages) := by
          constructor
          · exact fun h w hw => h w (List.mem_cons_of_mem _ hw)
          · intro h w hw
            rcases List.mem_cons.1 hw with rfl | hw
            · exact ⟨n, .inr ((extUsage_iff _ _).1 he)⟩
            · exact h w hw
        rw [hx]
        by_cases hm : n ∈ t.extUsage <;> simp [hm]

theorem keyBits_testBit (low : String → String) (us : List String) (k b : Nat) :
    (keyBits low k us).testBit b = true ↔ k.testBit b = true ∨ ∃ u ∈ us, (low u, b) ∈ keyUsages := by
  induction us generalizing k with
  | nil => simp [keyBits]
  | cons u us ih =>
    rw [keyBits, ih]
    cases h : keyUsages.lookup (low u) with
    | none =>
      have : (low u, b) ∉ keyUsages := fun hm => by rw [(keyUsage_iff _ _).2 hm] at h; cases h
      simp [this]
    | some c =>
      have : (low u, b) ∈ keyUsages ↔ c = b := by rw [← keyUsage_iff, h]; simp
      simp only [Nat.testBit_or, Bool.or_eq_true, Nat.one_shiftLeft, Nat.testBit_two_pow, decide_eq_true_eq, List.mem_cons, exists_eq_or_imp, this]
      exact or_assoc

theorem extNums_eq (low : String → String) (us : List String) (l0 : List Nat) :
    extNums low l0.reverse.dedup.reverse us = (l0 ++ us.filterMap (fun u => extUsages.lookup (low u))).reverse.dedup.reverse := by
  induction us generalizing l0 with
  | nil => simp [extNums]
  | cons u us ih =>
    rw [extNums]
    cases h : extUsages.lookup (low u) with
    | none => simp [h, ih]
    | some n =>
      have hd : (if n ∈ l0.reverse.dedup.reverse then l0.reverse.dedup.reverse else l0.reverse.dedup.reverse ++ [n]) = (l0 ++ [n]).reverse.dedup.reverse := by
        rw [List.reverse_append, List.reverse_singleton, List.singleton_append]
        by_cases hm : n ∈ l0
        · rw [List.dedup_cons_of_mem (by simpa using hm), if_pos (by simpa using hm)]
        · rw [List.dedup_cons_of_notMem (by simpa using hm), if_neg (by simpa using hm), List.reverse_cons]
      simp only [hd]
      rw [ih, List.filterMap_cons_some (f := fun u => extUsages.lookup (low u)) h]
      simp

theorem addHosts_eq (L : CertLib Priv Pub Cert Time IP) (hs : List String) (t : CertTemplate Time IP) :
    addHosts L t hs = { t with ips := t.ips ++ hs.filterMap L.parseIP, dns := t.dns ++ hs.filter (fun h => (L.parseIP h).isNone) } := by
  induction hs generalizing t with
  | nil => simp [addHosts]
  | cons h hs ih =>
    rw [addHosts]
    cases hp : L.parseIP h with
    | none => simp [ih, hp]
    | some ip => simp [ih, hp]


variable {E : Type}

theorem keyOf_iff {K : Type} {parse : String → Option K} {s : String} {k : Option K} :
    keyOf parse s = some k ↔ (s = "" ∧ k = none) ∨ (s ≠ "" ∧ ∃ p, parse s = some p ∧ k = some p) := by
  unfold keyOf
  by_cases h : s = ""
  · simp [h, eq_comm]
  · simp [h, eq_comm]

/-- the bit of certsign -/
theorem certsign_bit (k : Nat) : k &&& (1 <<< 5) ≠ 0 ↔ k.testBit 5 = true := by
  have hb : ∀ b, (k &&& (1 <<< 5)).testBit b = (k.testBit 5 && decide (b = 5)) := by
    intro b
    rw [Nat.testBit_and, Nat.one_shiftLeft, Nat.testBit_two_pow]
    by_cases h : b = 5
    · subst h; simp
    · have h' : ¬ 5 = b := fun e => h e.symm
      simp [h, h']
  constructor
  · intro h
    by_contra hn
    refine h (Nat.eq_of_testBit_eq (fun b => ?_))
    rw [hb]; simp [Bool.not_eq_true _ ▸ hn]
  · intro h h0
    have := hb 5
    rw [h0, h] at this
    simp at this

theorem certsign_name (s : String) : (s, 5) ∈ keyUsages ↔ s = "certsign" := by
  constructor
  · intro h
    have : ∀ p ∈ keyUsages, p.2 = 5 → p.1 = "certsign" := by decide +kernel
    exact this _ h rfl
  · rintro rfl; decide +kernel

theorem addCA_isCA (flag : Bool) (t : CertTemplate Time IP) (h : t.isCA = false) : (addCA flag t).isCA = true ↔ flag = true ∨ t.keyUsage.testBit 5 = true := by
  unfold addCA
  by_cases hc : (flag || decide (t.keyUsage &&& (1 <<< 5) ≠ 0)) = true
  · rw [if_pos hc]
    rw [Bool.or_eq_true, decide_eq_true_eq, certsign_bit] at hc
    simp [hc]
  · rw [if_neg hc]
    rw [Bool.or_eq_true, decide_eq_true_eq, certsign_bit] at hc
    simp [hc, h]

theorem addCA_keyUsage (flag : Bool) (t : CertTemplate Time IP) (b : Nat) : (addCA flag t).keyUsage.testBit b = true ↔ t.keyUsage.testBit b = true ∨ (b = 5 ∧ flag = true) := by
  unfold addCA
  by_cases hc : (flag || decide (t.keyUsage &&& (1 <<< 5) ≠ 0)) = true
  · rw [if_pos hc]
    rw [Bool.or_eq_true, decide_eq_true_eq, certsign_bit] at hc
    simp only [Nat.testBit_or, Bool.or_eq_true, Nat.one_shiftLeft, Nat.testBit_two_pow, decide_eq_true_eq]
    constructor
    · rintro (h | rfl)
      · exact .inl h
      · rcases hc with hc | hc
        · exact .inr ⟨rfl, hc⟩
        · exact .inl hc
    · rintro (h | ⟨rfl, _⟩)
      · exact .inl h
      · exact .inr rfl
  · rw [if_neg hc]
    rw [Bool.or_eq_true, decide_eq_true_eq, certsign_bit] at hc
    have : flag ≠ true := fun h => hc (.inl h)
    simp [this]

theorem addCA_rest (flag : Bool) (t : CertTemplate Time IP) : (addCA flag t).serial = t.serial ∧ (addCA flag t).organization = t.organization ∧ (addCA flag t).commonName = t.commonName ∧
    (addCA flag t).country = t.country ∧ (addCA flag t).notBefore = t.notBefore ∧ (addCA flag t).notAfter = t.notAfter ∧ (addCA flag t).extUsage = t.extUsage ∧
    (addCA flag t).ips = t.ips ∧ (addCA flag t).dns = t.dns := by
  unfold addCA
  split <;> simp

theorem ext_members (low : String → String) (us : List String) (n : Nat) :
    n ∈ (us.filterMap (fun u => extUsages.lookup (low u))).reverse.dedup.reverse ↔ ∃ u ∈ us, (low u, n) ∈ extUsages := by
  simp [extUsage_iff]

/-- a template is determined by its marks and fields -/
theorem template_eq {t s : CertTemplate Time IP} (h1 : t.serial = s.serial) (h2 : t.organization = s.organization) (h3 : t.commonName = s.commonName) (h4 : t.country = s.country)
    (h5 : t.notBefore = s.notBefore) (h6 : t.notAfter = s.notAfter) (h7 : ∀ b, t.keyUsage.testBit b = true ↔ s.keyUsage.testBit b = true) (h8 : t.extUsage = s.extUsage)
    (h9 : t.isCA = true ↔ s.isCA = true) (h10 : t.ips = s.ips) (h11 : t.dns = s.dns) : t = s := by
  have hk : t.keyUsage = s.keyUsage := Nat.eq_of_testBit_eq (fun b => Bool.eq_iff_iff.2 (h7 b))
  have hc : t.isCA = s.isCA := Bool.eq_iff_iff.2 h9
  cases t; cases s
  simp_all

/-- C102: the text of a certificate is that of the library for the template, the parent and the keys described by the fields; everything else fails -/
theorem x509cert_fields (L : CertLib Priv Pub Cert Time IP) (m : List (String × Node E)) (text : String) :
    certOf L m = some text ↔ ∃ t ca pub signer, CertPlan L m t ca pub signer ∧ L.create t ca pub signer = some text := by
  unfold certOf
  simp only [Option.bind_eq_bind, Option.bind_eq_some_iff, certStringsRequired, certBool_iff, certStrings_iff, certString_iff, certInt_iff, keyOf_iff, addUsages_eq]
  constructor
  · rintro ⟨flag, hflag, orgs, horgs, cn, hcn, cs, hcs, us, hus, hours, hhours, hs, hhs, privT, hprivT, priv, hpriv, pubT, hpubT, given, hgiven, pub, hpub, caT, hcaT, ca, hca,
      caK, hcaK, signer, hsigner, fromT, hfromT, nb, hnb, serial, hserial, t', ⟨husable, rfl⟩, hcreate⟩
    refine ⟨_, ca, pub, signer, ?_, hcreate⟩
    refine ⟨?_, ?_, ?_, ⟨hs, hhs, ?_, ?_⟩, ⟨fromT, hours, hfromT, ?_, hhours, ?_⟩, ?_, ⟨us, flag, hus, hflag, husable, ?_, ?_, ?_, ?_, ?_⟩, ⟨privT, pubT, caT, caK, hprivT, hpubT, hcaT, hcaK, ?_, ?_, ?_⟩⟩
    · rw [(addCA_rest _ _).2.1, addHosts_eq]; exact horgs
    · rw [(addCA_rest _ _).2.2.1, addHosts_eq]; exact hcn
    · rw [(addCA_rest _ _).2.2.2.1, addHosts_eq]; exact hcs
    · rw [(addCA_rest _ _).2.2.2.2.2.2.2.1, addHosts_eq]; simp
    · rw [(addCA_rest _ _).2.2.2.2.2.2.2.2, addHosts_eq]; simp
    · rw [(addCA_rest _ _).2.2.2.2.1, addHosts_eq]
      unfold startFor at hnb
      split at hnb
      · rename_i h; rw [if_pos h]; exact (Option.some.inj hnb).symm
      · rename_i h; rw [if_neg h]; exact hnb
    · rw [(addCA_rest _ _).2.2.2.2.2.1, (addCA_rest _ _).2.2.2.2.1, addHosts_eq]
    · rw [(addCA_rest _ _).1, addHosts_eq]; exact hserial
    · rw [addCA_isCA _ _ (by rw [addHosts_eq]), addHosts_eq]
      simp only [keyBits_testBit, certsign_name]
      simp
    · intro b
      rw [addCA_keyUsage, addHosts_eq]
      simp only [keyBits_testBit]
      simp
    · rw [(addCA_rest _ _).2.2.2.2.2.2.1, addHosts_eq]
      have := extNums_eq L.lower us []
      simp only [List.reverse_nil, List.dedup_nil, List.nil_append] at this
      simp only [this, List.nodup_reverse]
      exact List.nodup_dedup _
    · intro n
      rw [(addCA_rest _ _).2.2.2.2.2.2.1, addHosts_eq]
      have := extNums_eq L.lower us []
      simp only [List.reverse_nil, List.dedup_nil, List.nil_append] at this
      simp only [this]
      exact ext_members _ _ _
    · rw [(addCA_rest _ _).2.2.2.2.2.2.1, addHosts_eq]
      have := extNums_eq L.lower us []
      simp only [List.reverse_nil, List.dedup_nil, List.nil_append] at this
      exact this
    · rcases hpriv with ⟨h, _⟩ | ⟨_, p, hp, _⟩
      · exact .inl h
      · exact .inr ⟨p, hp⟩
    · rcases hgiven with ⟨h, rfl⟩ | ⟨h, p, hp, rfl⟩
      · rw [if_pos h]
        rcases hpriv with ⟨_, rfl⟩ | ⟨h1, p, hp, rfl⟩
        · simp [publicFor] at hpub
        · simp [publicFor] at hpub
          exact ⟨h1, p, hp, hpub.symm⟩
      · rw [if_neg h]
        simp [publicFor] at hpub
        exact hpub ▸ hp
    · rcases hca with ⟨h, rfl⟩ | ⟨h, c, hc, rfl⟩
      · rw [if_pos h]
        rcases hpriv with ⟨_, rfl⟩ | ⟨h1, p, hp, rfl⟩
        · simp [signerFor] at hsigner
        · simp [signerFor] at hsigner
          exact ⟨rfl, h1, hsigner ▸ hp⟩
      · rw [if_neg h]
        simp [signerFor] at hsigner
        exact ⟨⟨c, hc, rfl⟩, hsigner.1, hsigner.2⟩
  · rintro ⟨t, ca, pub, signer, ⟨horgs, hcn, hcs, ⟨hs, hhs, hips, hdns⟩, ⟨fromT, hours, hfromT, hnb, hhours, hna⟩, hserial, ⟨us, flag, hus, hflag, husable, hisCA, hkeys, _, _, hext⟩,
      ⟨privT, pubT, caT, caK, hprivT, hpubT, hcaT, hcaK, hpriv, hpub, hca⟩⟩, hcreate⟩
    have hprivE : ∃ priv, ((privT = "" ∧ priv = none) ∨ (privT ≠ "" ∧ ∃ p, L.parsePriv privT = some p ∧ priv = some p)) := by
      by_cases h : privT = ""
      · exact ⟨none, .inl ⟨h, rfl⟩⟩
      · rcases hpriv with h' | ⟨p, hp⟩
        · exact absurd h' h
        · exact ⟨some p, .inr ⟨h, p, hp, rfl⟩⟩
    obtain ⟨priv, hprivE⟩ := hprivE
    have hpubE : ∃ given, ((pubT = "" ∧ given = none) ∨ (pubT ≠ "" ∧ ∃ p, L.parsePub pubT = some p ∧ given = some p)) ∧
        publicFor L priv given = some pub := by
      by_cases h : pubT = ""
      · rw [if_pos h] at hpub
        obtain ⟨h1, p, hp, rfl⟩ := hpub
        refine ⟨none, .inl ⟨h, rfl⟩, ?_⟩
        rcases hprivE with ⟨h2, _⟩ | ⟨_, q, hq, rfl⟩
        · exact absurd h2 h1
        · rw [hp] at hq; injection hq with hq; simp [publicFor, hq]
      · rw [if_neg h] at hpub
        exact ⟨some pub, .inr ⟨h, pub, hpub, rfl⟩, rfl⟩
    obtain ⟨given, hgiven, hpub'⟩ := hpubE
    have hcaE : ((caT = "" ∧ ca = none) ∨ (caT ≠ "" ∧ ∃ p, L.parseCert caT = some p ∧ ca = some p)) ∧
        signerFor L ca caK priv = some signer := by
      by_cases h : caT = ""
      · rw [if_pos h] at hca
        obtain ⟨rfl, h1, hp⟩ := hca
        refine ⟨.inl ⟨h, rfl⟩, ?_⟩
        rcases hprivE with ⟨h2, _⟩ | ⟨_, q, hq, rfl⟩
        · exact absurd h2 h1
        · rw [hp] at hq; exact hq ▸ rfl
      · rw [if_neg h] at hca
        obtain ⟨⟨c, hc, rfl⟩, h1, h2⟩ := hca
        refine ⟨.inr ⟨h, c, hc, rfl⟩, ?_⟩
        simp [signerFor, h1, h2]
    refine ⟨flag, hflag, _, horgs, _, hcn, _, hcs, us, hus, hours, hhours, hs, hhs, privT, hprivT, priv, hprivE, pubT, hpubT, given, hgiven, pub, hpub', caT, hcaT, ca, hcaE.1,
      caK, hcaK, signer, hcaE.2, fromT, hfromT, t.notBefore, ?_, t.serial, hserial, _, ⟨husable, rfl⟩, ?_⟩
    · unfold startFor
      by_cases h : fromT = ""
      · rw [if_pos h] at hnb ⊢; rw [hnb]
      · rw [if_neg h] at hnb ⊢; exact hnb
    · rw [← hcreate]
      congr 1
      symm
      apply template_eq
      · rw [(addCA_rest _ _).1, addHosts_eq]
      · rw [(addCA_rest _ _).2.1, addHosts_eq]
      · rw [(addCA_rest _ _).2.2.1, addHosts_eq]
      · rw [(addCA_rest _ _).2.2.2.1, addHosts_eq]
      · rw [(addCA_rest _ _).2.2.2.2.1, addHosts_eq]
      · rw [(addCA_rest _ _).2.2.2.2.2.1, addHosts_eq]; exact hna
      · intro b
        rw [hkeys, addCA_keyUsage, addHosts_eq]
        simp only [keyBits_testBit]
        simp
      · rw [(addCA_rest _ _).2.2.2.2.2.2.1, addHosts_eq, hext]
        have := extNums_eq L.lower us []
        simp only [List.reverse_nil, List.dedup_nil, List.nil_append] at this
        exact this.symm
      · rw [hisCA, addCA_isCA _ _ (by rw [addHosts_eq]), addHosts_eq]
        simp only [keyBits_testBit, certsign_name]
        simp
      · rw [(addCA_rest _ _).2.2.2.2.2.2.2.1, addHosts_eq, hips]; simp
      · rw [(addCA_rest _ _).2.2.2.2.2.2.2.2, addHosts_eq, hdns]; simp

theorem bit_test (k b : Nat) : k &&& (1 <<< b) ≠ 0 ↔ k.testBit b = true := by
  have hb : ∀ c, (k &&& (1 <<< b)).testBit c = (k.testBit c && decide (b = c)) := by
    intro c
    rw [Nat.testBit_and, Nat.one_shiftLeft, Nat.testBit_two_pow]
  constructor
  · intro h
    by_contra hn
    refine h (Nat.eq_of_testBit_eq (fun c => ?_))
    rw [hb]
    by_cases e : b = c
    · subst e; simpa using hn
    · simp [e]
  · intro h h0
    have := hb b
    rw [h0, h] at this
    simp at this

theorem keyUsagesOf_eq (u : Nat) : keyUsagesOf u = (shownKeyUsages.filter (fun p => u.testBit p.2)).map Prod.fst := by
  have e1 : List.range 9 = shownKeyUsages.map Prod.snd := by decide +kernel
  have e2 : ∀ p ∈ shownKeyUsages, keyUsageTexts[p.2]? = some p.1 := by decide +kernel
  unfold keyUsagesOf
  simp only [bit_test]
  rw [e1]
  generalize shownKeyUsages = l at e2
  induction l with
  | nil => rfl
  | cons p l ih =>
    have ih := ih (fun q hq => e2 q (List.mem_cons_of_mem _ hq))
    by_cases h : u.testBit p.2 = true
    · simp [h, e2 p (by simp), ih]
    · simp [h, ih]

theorem extUsagesOf_eq (u : List Nat) : extUsagesOf u = u.map (fun n => ((shownExtUsages.find? (fun p => p.2 == n)).map Prod.fst).getD "UnknownExtKeyUsage") := by
  unfold extUsagesOf
  apply List.map_congr_left
  intro n _
  by_cases h : n < 14
  · have : ∀ n, n < 14 → extUsageTexts.getD n "UnknownExtKeyUsage" = ((shownExtUsages.find? (fun p => p.2 == n)).map Prod.fst).getD "UnknownExtKeyUsage" := by decide +kernel
    exact this n h
  · rw [show extUsageTexts.getD n "UnknownExtKeyUsage" = "UnknownExtKeyUsage" by
      rw [List.getD_eq_getElem?_getD, List.getElem?_eq_none (by simpa [extUsageTexts] using h)]; rfl]
    have : shownExtUsages.find? (fun p => p.2 == n) = none := by
      rw [List.find?_eq_none]
      intro p hp
      have : ∀ p ∈ shownExtUsages, p.2 < 14 := by decide +kernel
      have := this p hp
      simp; omega
    rw [this]; rfl

/-- the value of a field -/
def fieldVal (m : List (String × Node E)) (k : String) : Option (Val E) := (mget m k).map Node.val

theorem fieldVal_set (src : String) (m : List (String × Node E)) (k : String) (v : Val E) (k' : String) :
    fieldVal (mset m k (Node.new v src)) k' = if k' = k then some v else fieldVal m k' := by
  unfold fieldVal
  by_cases h : k' = k
  · subst h; rw [mget_mset_self, if_pos rfl]; rfl
  · rw [mget_mset_ne _ _ h, if_neg h]

theorem fieldVal_put (src : String) (m : List (String × Node E)) (k : String) (o : Option (Val E)) (k' : String) (hm : fieldVal m k = none) :
    fieldVal (putField src m k o) k' = if k' = k then o else fieldVal m k' := by
  unfold putField
  cases o with
  | none =>
    by_cases h : k' = k
    · subst h; rw [if_pos rfl]; exact hm
    · rw [if_neg h]
  | some v => exact fieldVal_set src m k v k'

theorem put_step {m : List (String × Node E)} {F : String → Option (Val E)} (src name : String) (o : Option (Val E)) (hm : ∀ k, fieldVal m k = F k) (hF : F name = none) (k : String) :
    fieldVal (putField src m name o) k = if k = name then o else F k := by
  rw [fieldVal_put _ _ _ _ _ (by rw [hm, hF]), hm]

theorem certFields_val (L : CertLib Priv Pub Cert Time IP) (src : String) (v : CertView Time IP) (k : String) :
    fieldVal (E := E) (certFields L src v) k =
      if k = "usage" then some (.list (stringNodes src (keyUsagesOf v.keyUsage ++ extUsagesOf v.extUsage)))
      else if k = "validity" then some (.int (L.hoursLeft v.notAfter))
      else if k = "validUntil" then some (.str (L.showTime v.notAfter))
      else if k = "validFrom" then some (.str (L.showTime v.notBefore))
      else if k = "hosts" then (if (v.dns.getD []).length + (v.dns.getD []).length > 0 then
        some (.list (stringNodes src ((v.ips.getD []).map L.showIP) ++ stringNodes src (v.dns.getD []))) else none)
      else if k = "ipAddresses" then v.ips.map (fun l => .list (stringNodes src (l.map L.showIP)))
      else if k = "dnsNames" then v.dns.map (fun l => .list (stringNodes src l))
      else if k = "organization" then v.organization.map (fun l => .list (stringNodes src l))
      else if k = "country" then v.country.map (fun l => .list (stringNodes src l))
      else if k = "commonName" then (if v.commonName = "" then none else some (.str v.commonName))
      else if k = "isCA" then some (.bool v.isCA) else none := by
  have h0 : ∀ k, fieldVal (E := E) [] k = none := fun k => rfl
  unfold certFields
  simp only [fieldVal_set]
  have p0 : ∀ k, fieldVal (E := E) (mset [] "isCA" (Node.new (.bool v.isCA) src)) k = if k = "isCA" then some (.bool v.isCA) else none :=
    fun k => by rw [fieldVal_set, h0]
  have p1 := put_step src "commonName" (if v.commonName = "" then none else some (.str v.commonName)) p0 (by simp)
  have p2 := put_step src "country" (v.country.map (fun l => .list (stringNodes src l))) p1 (by simp)
  have p3 := put_step src "organization" (v.organization.map (fun l => .list (stringNodes src l))) p2 (by simp)
  have p4 := put_step src "dnsNames" (v.dns.map (fun l => .list (stringNodes src l))) p3 (by simp)
  have p5 := put_step src "ipAddresses" (v.ips.map (fun l => .list (stringNodes src (l.map L.showIP)))) p4 (by simp)
  have p6 := put_step src "hosts" (if (v.dns.getD []).length + (v.dns.getD []).length > 0 then
        some (.list (stringNodes src ((v.ips.getD []).map L.showIP) ++ stringNodes src (v.dns.getD []))) else none) p5 (by simp)
  rw [p6]

/-- C102: the fields shown for a certificate -/
theorem certFields_shows (L : CertLib Priv Pub Cert Time IP) (src : String) (v : CertView Time IP) (k : String) (x : Val E) :
    fieldVal (certFields L src v) k = some x ↔ CertShows L src { v with publicKey := .absent } k x := by
  rw [certFields_val]
  constructor
  · intro h
    by_cases h1 : k = "usage"
    · subst h1; rw [if_pos rfl] at h; rw [← Option.some.inj h, keyUsagesOf_eq, extUsagesOf_eq]; exact .usage
    rw [if_neg h1] at h
    by_cases h1 : k = "validity"
    · subst h1; rw [if_pos rfl] at h; rw [← Option.some.inj h]; exact .validity
    rw [if_neg h1] at h
    by_cases h1 : k = "validUntil"
    · subst h1; rw [if_pos rfl] at h; rw [← Option.some.inj h]; exact .validUntil
    rw [if_neg h1] at h
    by_cases h1 : k = "validFrom"
    · subst h1; rw [if_pos rfl] at h; rw [← Option.some.inj h]; exact .validFrom
    rw [if_neg h1] at h
    by_cases h1 : k = "hosts"
    · subst h1; rw [if_pos rfl] at h
      split at h
      · rename_i hl
        by_cases hs : v.dns = none
        · rw [hs] at hl; simp at hl
        · obtain ⟨l, hd⟩ := Option.ne_none_iff_exists'.1 hs
          rw [hd] at h hl
          rw [← Option.some.inj h]
          have := CertShows.hosts (E := E) (L := L) (src := src) (v := { v with publicKey := .absent }) hd (fun e => by subst e; simp at hl)
          simpa [textsVal, stringNodes] using this
      · cases h
    rw [if_neg h1] at h
    by_cases h1 : k = "ipAddresses"
    · subst h1; rw [if_pos rfl] at h
      obtain ⟨l, hl, rfl⟩ := Option.map_eq_some_iff.1 h
      exact .ipAddresses hl
    rw [if_neg h1] at h
    by_cases h1 : k = "dnsNames"
    · subst h1; rw [if_pos rfl] at h
      obtain ⟨l, hl, rfl⟩ := Option.map_eq_some_iff.1 h
      exact .dnsNames hl
    rw [if_neg h1] at h
    by_cases h1 : k = "organization"
    · subst h1; rw [if_pos rfl] at h
      obtain ⟨l, hl, rfl⟩ := Option.map_eq_some_iff.1 h
      exact .organization hl
    rw [if_neg h1] at h
    by_cases h1 : k = "country"
    · subst h1; rw [if_pos rfl] at h
      obtain ⟨l, hl, rfl⟩ := Option.map_eq_some_iff.1 h
      exact .country hl
    rw [if_neg h1] at h
    by_cases h1 : k = "commonName"
    · subst h1; rw [if_pos rfl] at h
      split at h
      · cases h
      · rename_i hc; rw [← Option.some.inj h]; exact .commonName hc
    rw [if_neg h1] at h
    by_cases h1 : k = "isCA"
    · subst h1; rw [if_pos rfl] at h; rw [← Option.some.inj h]; exact .isCA
    rw [if_neg h1] at h
    cases h
  · intro h
    cases h with
    | usage => rw [keyUsagesOf_eq, extUsagesOf_eq]; simp [textsVal, stringNodes]
    | hosts h1 h2 =>
      have h1' : v.dns = some _ := h1
      rw [h1']
      have : 0 < (Option.getD (some _) []).length := List.length_pos_of_ne_nil h2
      simp [textsVal, stringNodes, h2]
    | commonName h1 => simp at h1; simp [h1]
    | country h1 => simp at h1; simp [h1, textsVal, stringNodes]
    | organization h1 => simp at h1; simp [h1, textsVal, stringNodes]
    | dnsNames h1 => simp at h1; simp [h1, textsVal, stringNodes]
    | ipAddresses h1 => simp at h1; simp [h1, textsVal, stringNodes]
    | publicKey h1 => cases h1
    | _ => simp

theorem shows_key {L : CertLib Priv Pub Cert Time IP} {src : String} {v : CertView Time IP} {x : Val E} (h : CertShows L src v "publicKey" x) :
    ∃ t, v.publicKey = .text t ∧ x = .str t := by
  generalize hk : "publicKey" = k at h
  cases h with
  | publicKey h => exact ⟨_, h, rfl⟩
  | _ => exact absurd hk (by decide)

/-- C102: what is shown for a certificate, by name -/
theorem x509parsecert_shows (L : CertLib Priv Pub Cert Time IP) (src : String) (s : String) (m : List (String × Node E))
    (h : funcX509ParseCert L src [.str s] = .ok (.map m)) :
    ∃ c, L.parseCert s = some c ∧ ∀ k x, ((∃ n, mget m k = some n ∧ n.val = x) ↔ CertShows L src (L.view c) k x) := by
  rw [funcX509ParseCert] at h
  cases hc : L.parseCert s with
  | none => rw [hc] at h; cases h
  | some c =>
    rw [hc] at h
    refine ⟨c, rfl, fun k x => ?_⟩
    have hf : (∃ n, mget m k = some n ∧ n.val = x) ↔ fieldVal m k = some x := by
      rw [fieldVal, Option.map_eq_some_iff]
    rw [hf]
    have same : ∀ (v : CertView Time IP) k (x : Val E), (∀ t, v.publicKey ≠ .text t) → (CertShows L src { v with publicKey := .absent } k x ↔ CertShows L src v k x) := by
      intro v k x hv
      constructor
      · intro h
        cases h with
        | isCA => exact .isCA
        | commonName h => exact .commonName h
        | country h => exact .country h
        | organization h => exact .organization h
        | dnsNames h => exact .dnsNames h
        | ipAddresses h => exact .ipAddresses h
        | hosts h h' => exact .hosts h h'
        | validFrom => exact .validFrom
        | validUntil => exact .validUntil
        | validity => exact .validity
        | usage => exact .usage
        | publicKey h => cases h
      · intro h
        cases h with
        | isCA => exact .isCA
        | commonName h => exact .commonName h
        | country h => exact .country h
        | organization h => exact .organization h
        | dnsNames h => exact .dnsNames h
        | ipAddresses h => exact .ipAddresses h
        | hosts h h' => exact .hosts h h'
        | validFrom => exact .validFrom
        | validUntil => exact .validUntil
        | validity => exact .validity
        | usage => exact .usage
        | publicKey h => exact absurd h (hv _)
    simp only at h
    cases hk : (L.view c).publicKey with
    | absent =>
      rw [hk] at h
      injection h with h; injection h with h
      rw [← h, certFields_shows]
      exact same _ _ _ (fun t => by rw [hk]; exact fun e => nomatch e)
    | text t =>
      rw [hk] at h
      injection h with h; injection h with h
      rw [← h, fieldVal_set]
      by_cases hp : k = "publicKey"
      · subst hp
        rw [if_pos rfl]
        constructor
        · intro e; rw [← Option.some.inj e]; exact .publicKey hk
        · intro e
          obtain ⟨t', h', rfl⟩ := shows_key e
          rw [hk] at h'; injection h' with h'; rw [h']
      · rw [if_neg hp, certFields_shows]
        constructor
        · intro h
          cases h with
          | isCA => exact .isCA
          | commonName h => exact .commonName h
          | country h => exact .country h
          | organization h => exact .organization h
          | dnsNames h => exact .dnsNames h
          | ipAddresses h => exact .ipAddresses h
          | hosts h h' => exact .hosts h h'
          | validFrom => exact .validFrom
          | validUntil => exact .validUntil
          | validity => exact .validity
          | usage => exact .usage
          | publicKey h => cases h
        · intro h
          cases h with
          | isCA => exact .isCA
          | commonName h => exact .commonName h
          | country h => exact .country h
          | organization h => exact .organization h
          | dnsNames h => exact .dnsNames h
          | ipAddresses h => exact .ipAddresses h
          | hosts h h' => exact .hosts h h'
          | validFrom => exact .validFrom
          | validUntil => exact .validUntil
          | validity => exact .validity
          | usage => exact .usage
          | publicKey h => exact absurd rfl hp
    | fails => rw [hk] at h; cases h
    | noBlock => rw [hk] at h; cases h

/-- C102: it succeeds with a map for the text of a certificate with a key of a known type -/
theorem x509parsecert_iff (L : CertLib Priv Pub Cert Time IP) (src : String) (args : List (Val E)) (x : Val E) :
    funcX509ParseCert L src args = .ok x → ∃ s m, args = [.str s] ∧ x = .map m := by
  intro h
  unfold funcX509ParseCert at h
  split at h
  · rename_i s
    split at h
    · cases h
    · split at h
      · injection h with h; exact ⟨s, _, rfl, h.symm⟩
      · injection h with h; exact ⟨s, _, rfl, h.symm⟩
      · cases h
      · cases h
  · cases h

/-- C102: when it ends with an error, and when it panics -/
theorem x509parsecert_fails (L : CertLib Priv Pub Cert Time IP) (src : String) (s : String) :
    (funcX509ParseCert (E := E) L src [.str s] = .err ↔ L.parseCert s = none ∨ ∃ c, L.parseCert s = some c ∧ (L.view c).publicKey = .fails) ∧
    (funcX509ParseCert (E := E) L src [.str s] = .panic ↔ ∃ c, L.parseCert s = some c ∧ (L.view c).publicKey = .noBlock) := by
  rw [funcX509ParseCert]
  cases hc : L.parseCert s with
  | none => simp
  | some c => cases hk : (L.view c).publicKey <;> simp [hk]

/-- C102: `x509cert` -/
theorem x509cert_iff (L : CertLib Priv Pub Cert Time IP) (args : List (Val E)) (x : Val E) :
    funcX509Cert L args = .ok x ↔ ∃ m t ca pub signer text, args = [.map m] ∧ CertPlan L m t ca pub signer ∧ L.create t ca pub signer = some text ∧ x = .str text := by
  constructor
  · intro h
    unfold funcX509Cert at h
    split at h
    · rename_i m
      split at h
      · rename_i s hs
        obtain ⟨t, ca, pub, signer, hp, hc⟩ := (x509cert_fields L m s).1 hs
        injection h with h
        exact ⟨m, t, ca, pub, signer, s, rfl, hp, hc, h.symm⟩
      · cases h
    · cases h
  · rintro ⟨m, t, ca, pub, signer, text, rfl, hp, hc, rfl⟩
    rw [funcX509Cert, (x509cert_fields L m text).2 ⟨t, ca, pub, signer, hp, hc⟩]

/-- C102: it never panics -/
theorem x509cert_total (L : CertLib Priv Pub Cert Time IP) (args : List (Val E)) : funcX509Cert L args = .err ∨ ∃ s, funcX509Cert L args = .ok (.str s) := by
  unfold funcX509Cert
  split
  · split
    · exact .inr ⟨_, rfl⟩
    · exact .inl rfl
  · exact .inl rfl

/-- C102: the names shown for usages are those accepted for the same usages, up to case — but for the usage content commitment -/
theorem shown_usages_accepted :
    (∀ s b, (s, b) ∈ shownKeyUsages → s ≠ "ContentCommitment" → (s.toLower, b) ∈ keyUsages) ∧ (∀ s n, (s, n) ∈ shownExtUsages → (s.toLower, n) ∈ extUsages) ∧
    ∀ b, ("ContentCommitment".toLower, b) ∉ keyUsages ∧ ("ContentCommitment".toLower, b) ∉ extUsages := by
  refine ⟨?_, ?_, ?_⟩
  · have : ∀ p ∈ shownKeyUsages, p.1 ≠ "ContentCommitment" → (p.1.toLower, p.2) ∈ keyUsages := by decide +kernel
    exact fun s b h => this (s, b) h
  · have : ∀ p ∈ shownExtUsages, (p.1.toLower, p.2) ∈ extUsages := by decide +kernel
    exact fun s b h => this (s, b) h
  · have h1 : ∀ p ∈ keyUsages, p.1 ≠ "ContentCommitment".toLower := by decide +kernel
    have h2 : ∀ p ∈ extUsages, p.1 ≠ "ContentCommitment".toLower := by decide +kernel
    exact fun b => ⟨fun h => h1 _ h rfl, fun h => h2 _ h rfl⟩

/-- C102: a certificate for addresses only shows no hosts -/
theorem hosts_lost (L : CertLib Priv Pub Cert Time IP) (src : String) (v : CertView Time IP) (h : v.dns = none) (x : Val E) : ¬ CertShows L src v "hosts" x := by
  intro hx
  generalize hk : "hosts" = k at hx
  cases hx with
  | hosts h1 _ => rw [h] at h1; cases h1
  | _ => exact absurd hk (by decide)

/-! ### a library -/
def toyView (c : String) : CertView Nat String :=
  ⟨false, "", none, some ["o"], none, some ["10.0.0.1"], 3, 4, 34, [1], if c = "odd" then .noBlock else .text "pub"⟩

/-- the text of a certificate consists of its organizations, hosts, usages and keys -/
def toyCerts : CertLib String String String Nat String where
  parsePriv s := if s = "kp" ∨ s = "ka" then some s else none
  parsePub s := if s = "pub" then some s else none
  parseCert s := if s = "" then none else some s
  publicOf s := s ++ "'"
  lower := String.toLower
  now := 5
  parseTime s := if s = "then" then some 3 else none
  showTime t := toString t
  addNanos t d := t + d.toNat
  hoursLeft t := ((t - 5) / 3600000000000 : Nat)
  serial := some 7
  parseIP s := if s = "10.0.0.1" then some s else none
  showIP s := s
  create := fun t ca pub signer => some (String.intercalate " " (t.organization ++ t.dns ++ t.ips ++ [toString t.keyUsage, toString t.extUsage, toString t.isCA, ca.getD "self", pub, signer]))
  view := toyView

def toyRequest : List (String × Node Unit) :=
  [("organization", Node.new (.str "o") ""), ("hosts", Node.new (.list [Node.new (.str "10.0.0.1") "", Node.new (.str "h") ""]) ""),
   ("usage", Node.new (.list [Node.new (.str "ServerAuth") "", Node.new (.str "CertSign") "", Node.new (.str "serverauth") "", Node.new (.str "Any") ""]) ""),
   ("privateKey", Node.new (.str "kp") ""), ("caCert", Node.new (.str "ca") ""), ("caPrivateKey", Node.new (.str "ka") "")]

theorem toy_request : funcX509Cert toyCerts [.map toyRequest] = .ok (.str "o h 10.0.0.1 32 [1, 0] true ca kp' ka") := by
  have hc : certOf toyCerts toyRequest = some "o h 10.0.0.1 32 [1, 0] true ca kp' ka" := by decide +kernel
  rw [funcX509Cert, hc]

/-- the hypotheses of the description of a certificate are met -/
example : ∃ t ca pub signer, CertPlan toyCerts toyRequest t ca pub signer := by
  obtain ⟨m, t, ca, pub, signer, text, e, hp, _, _⟩ := (x509cert_iff toyCerts _ _).1 toy_request
  injection e with e _; injection e with e
  exact ⟨t, ca, pub, signer, e ▸ hp⟩
/-- without a key of the authority -/
example : certOf toyCerts [("privateKey", (Node.new (.str "kp") "" : Node Unit)), ("caCert", Node.new (.str "ca") "")] = none := by decide +kernel
/-- an unknown usage -/
example : certOf toyCerts [("privateKey", (Node.new (.str "kp") "" : Node Unit)), ("usage", Node.new (.str "ContentCommitment") "")] = none := by decide +kernel
/-- what is shown for a certificate -/
example : ∃ m, funcX509ParseCert (E := Unit) toyCerts "f" [.str "c"] = .ok (.map m) := ⟨_, rfl⟩
example : CertShows (E := Unit) toyCerts "f" (toyCerts.view "c") "usage" (textsVal "f" ["ContentCommitment", "CertSign", "ServerAuth"]) := by
  have h := CertShows.usage (E := Unit) (L := toyCerts) (src := "f") (v := toyCerts.view "c")
  have e : (shownKeyUsages.filter (fun p => (toyCerts.view "c").keyUsage.testBit p.2)).map Prod.fst ++
      (toyCerts.view "c").extUsage.map (fun n => ((shownExtUsages.find? (fun p => p.2 == n)).map Prod.fst).getD "UnknownExtKeyUsage") = ["ContentCommitment", "CertSign", "ServerAuth"] := by
    decide +kernel
  rw [e] at h
  exact h
/-- a key of another type -/
example : funcX509ParseCert (E := Unit) toyCerts "f" [.str "odd"] = .panic := rfl

end
end Spiff
