import Verif.Model.Validate
import Verif.Spec.Dns
import Verif.Props.Validate2
/-
C71: the validators for DNS names.
-/
namespace Spiff
open Spec RegularExpression

theorem reChars_iff (l s : List Char) : s ∈ (reChars l).matches' ↔ ∃ c ∈ l, s = [c] := by
  induction l with
  | nil => simp [reChars, Language.notMem_zero]
  | cons a r ih =>
    rw [reChars, matches'_add, matches'_char, Language.mem_add, ih]
    constructor
    · rintro (h | ⟨c, hc, rfl⟩)
      · exact ⟨a, List.mem_cons_self, h⟩
      · exact ⟨c, List.mem_cons_of_mem _ hc, rfl⟩
    · rintro ⟨c, hc, rfl⟩
      rcases List.mem_cons.1 hc with rfl | hc
      · exact .inl rfl
      · exact .inr ⟨c, hc, rfl⟩

theorem reCharsStar_iff (l s : List Char) : s ∈ (reChars l).star.matches' ↔ ∀ c ∈ s, c ∈ l := by
  rw [matches'_star, Language.mem_kstar]
  constructor
  · rintro ⟨ls, rfl, h⟩ c hc
    obtain ⟨x, hx, hcx⟩ := List.mem_flatten.1 hc
    obtain ⟨d, hd, rfl⟩ := (reChars_iff ..).1 (h x hx)
    rw [List.mem_singleton] at hcx
    rwa [hcx]
  · intro h
    refine ⟨s.map (fun c => [c]), ?_, ?_⟩
    · clear h
      induction s with
      | nil => rfl
      | cons a r ih => rw [List.map_cons, List.flatten_cons, ← ih]; rfl
    · intro y hy
      obtain ⟨c, hc, rfl⟩ := List.mem_map.1 hy
      exact (reChars_iff ..).2 ⟨c, h c hc, rfl⟩

theorem lower_mem (c : Char) : c ∈ lowers ↔ 'a' ≤ c ∧ c ≤ 'z' := by
  constructor
  · intro h
    have : ∀ c ∈ lowers, 'a' ≤ c ∧ c ≤ 'z' := by decide +kernel
    exact this c h
  · rintro ⟨h1, h2⟩
    have h1' : 97 ≤ c.toNat := h1
    have h2' : c.toNat ≤ 122 := h2
    have : ∀ n, n < 123 → 97 ≤ n → Char.ofNat n ∈ lowers := by decide +kernel
    have := this c.toNat (by omega) h1'
    rwa [Char.ofNat_toNat] at this

theorem digit_mem (c : Char) : c ∈ digits ↔ '0' ≤ c ∧ c ≤ '9' := by
  constructor
  · intro h
    have : ∀ c ∈ digits, '0' ≤ c ∧ c ≤ '9' := by decide +kernel
    exact this c h
  · rintro ⟨h1, h2⟩
    have h1' : 48 ≤ c.toNat := h1
    have h2' : c.toNat ≤ 57 := h2
    have : ∀ n, n < 58 → 48 ≤ n → Char.ofNat n ∈ digits := by decide +kernel
    have := this c.toNat (by omega) h1'
    rwa [Char.ofNat_toNat] at this

theorem alnum_mem (c : Char) : c ∈ lowers ++ digits ↔ LowerOrDigit c := by
  rw [List.mem_append, lower_mem, digit_mem]; rfl

theorem dash_not_alnum : ¬ LowerOrDigit '-' := by rw [← alnum_mem]; decide +kernel

/-- a character, optionally followed by characters and a last character -/
theorem labelRe_iff (first mid last : List Char) (s : List Char) :
    s ∈ (reChars first * reOpt ((reChars mid).star * reChars last)).matches' ↔
      (∃ c ∈ first, s = [c]) ∨ ∃ c ∈ first, ∃ t, (∀ x ∈ t, x ∈ mid) ∧ ∃ d ∈ last, s = c :: t ++ [d] := by
  rw [matches'_mul, Language.mem_mul]
  simp only [reOpt, matches'_add, matches'_epsilon, Language.mem_add, Language.mem_one, matches'_mul, Language.mem_mul, reChars_iff, reCharsStar_iff]
  constructor
  · rintro ⟨a, ⟨c, hc, rfl⟩, b, (rfl | ⟨t, ht, e, ⟨d, hd, rfl⟩, rfl⟩), rfl⟩
    · exact .inl ⟨c, hc, rfl⟩
    · exact .inr ⟨c, hc, t, ht, d, hd, rfl⟩
  · rintro (⟨c, hc, rfl⟩ | ⟨c, hc, t, ht, d, hd, rfl⟩)
    · exact ⟨[c], ⟨c, hc, rfl⟩, [], .inl rfl, rfl⟩
    · exact ⟨[c], ⟨c, hc, rfl⟩, t ++ [d], .inr ⟨t, ht, [d], ⟨d, hd, rfl⟩, rfl⟩, rfl⟩

theorem label_shape (s : List Char) : DnsLabel s ↔
    (∃ c, LowerOrDigit c ∧ s = [c]) ∨ ∃ c, LowerOrDigit c ∧ ∃ t, (∀ x ∈ t, LowerOrDigit x ∨ x = '-') ∧ ∃ d, LowerOrDigit d ∧ s = c :: t ++ [d] := by
  constructor
  · rintro ⟨h0, h1, h2, h3⟩
    cases s with
    | nil => exact absurd rfl h0
    | cons c r =>
      have hc : LowerOrDigit c := by
        rcases h1 c List.mem_cons_self with h | rfl
        · exact h
        · exact absurd rfl h2
      rcases List.eq_nil_or_concat r with rfl | ⟨t, d, rfl⟩
      · exact .inl ⟨c, hc, rfl⟩
      · rw [List.concat_eq_append] at h1 h3 ⊢
        refine .inr ⟨c, hc, t, fun x hx => h1 x (by simp [hx]), d, ?_, rfl⟩
        rcases h1 d (by simp) with h | rfl
        · exact h
        · rw [← List.cons_append, List.getLast?_append] at h3
          simp at h3
  · have hne : ∀ c, LowerOrDigit c → c ≠ '-' := by rintro c hc rfl; exact dash_not_alnum hc
    rintro (⟨c, hc, rfl⟩ | ⟨c, hc, t, ht, d, hd, rfl⟩)
    · refine ⟨by simp, by simp [hc], ?_, ?_⟩ <;> simp [hne c hc]
    · refine ⟨by simp, ?_, by simp [hne c hc], ?_⟩
      · intro x hx
        simp only [List.cons_append, List.mem_cons, List.mem_append, List.not_mem_nil, or_false] at hx
        rcases hx with rfl | hx | rfl
        · exact .inl hc
        · exact ht x hx
        · exact .inl hd
      · rw [List.getLast?_append]
        simp [hne d hd]

theorem dns1123Label_iff (s : List Char) : s ∈ dns1123Label.matches' ↔ DnsLabel s := by
  rw [dns1123Label, labelRe_iff, label_shape]
  simp only [alnum_mem]
  have : ∀ x, x ∈ '-' :: lowers ++ digits ↔ LowerOrDigit x ∨ x = '-' := by
    intro x
    rw [List.cons_append, List.mem_cons, alnum_mem]
    exact or_comm
  simp only [this]

theorem dns1123Subdomain_iff (s : List Char) : s ∈ dns1123Subdomain.matches' ↔ DnsDomain s := by
  rw [dns1123Subdomain, matches'_mul, Language.mem_mul]
  simp only [dns1123Label_iff, matches'_star, Language.mem_kstar, matches'_mul, Language.mem_mul, matches'_char]
  constructor
  · rintro ⟨l, hl, t, ⟨ps, rfl, hps⟩, rfl⟩
    have : ∃ ls : List (List Char), (∀ x ∈ ls, DnsLabel x) ∧ ps = ls.map ('.' :: ·) := by
      clear hl
      induction ps with
      | nil => exact ⟨[], by simp, rfl⟩
      | cons p r ih =>
        obtain ⟨ls, h1, h2⟩ := ih (fun y hy => hps y (List.mem_cons_of_mem _ hy))
        obtain ⟨a, rfl, x, hx, rfl⟩ := hps p List.mem_cons_self
        refine ⟨x :: ls, ?_, by rw [h2]; rfl⟩
        intro y hy
        rcases List.mem_cons.1 hy with rfl | hy
        · exact hx
        · exact h1 y hy
    obtain ⟨ls, h1, rfl⟩ := this
    exact ⟨l, ls, hl, h1, rfl⟩
  · rintro ⟨l, ls, hl, h1, rfl⟩
    refine ⟨l, hl, _, ⟨ls.map ('.' :: ·), rfl, ?_⟩, rfl⟩
    intro y hy
    obtain ⟨x, hx, rfl⟩ := List.mem_map.1 hy
    exact ⟨['.'], rfl, x, h1 x hx, rfl⟩

theorem wildcard_iff (s : List Char) : s ∈ wildcardDns1123Subdomain.matches' ↔ DnsWildcard s := by
  rw [wildcardDns1123Subdomain, matches'_mul, Language.mem_mul]
  simp only [dns1123Subdomain_iff, matches'_mul, matches'_char, Language.mem_mul]
  constructor
  · rintro ⟨a, ⟨x, rfl, y, rfl, rfl⟩, d, hd, rfl⟩
    exact ⟨d, hd, rfl⟩
  · rintro ⟨d, hd, rfl⟩
    exact ⟨['*', '.'], ⟨['*'], rfl, ['.'], rfl, rfl⟩, d, hd, rfl⟩

/-- ASCII texts have as many bytes as characters -/
theorem byteLen_ascii {s : List Char} (h : ∀ c ∈ s, c.utf8Size = 1) : byteLen s = s.length := by
  induction s with
  | nil => rfl
  | cons a r ih =>
    have := ih (fun c hc => h c (List.mem_cons_of_mem _ hc))
    simp only [byteLen, List.map_cons, List.sum_cons, List.length_cons] at this ⊢
    rw [this, h a List.mem_cons_self]; omega

theorem alnum_size {c : Char} (h : LowerOrDigit c ∨ c = '-') : c.utf8Size = 1 := by
  have : ∀ c ∈ '-' :: (lowers ++ digits), c.utf8Size = 1 := by decide +kernel
  apply this
  rw [List.mem_cons, alnum_mem]
  exact h.symm

theorem label_size {s : List Char} (h : DnsLabel s) : ∀ c ∈ s, c.utf8Size = 1 := fun c hc => alnum_size (h.2.1 c hc)

theorem domain_size {s : List Char} (h : DnsDomain s) : ∀ c ∈ s, c.utf8Size = 1 := by
  obtain ⟨l, ls, h1, h2, rfl⟩ := h
  intro c hc
  rcases List.mem_append.1 hc with hc | hc
  · exact label_size h1 c hc
  · obtain ⟨x, hx, hcx⟩ := List.mem_flatten.1 hc
    obtain ⟨y, hy, rfl⟩ := List.mem_map.1 hx
    rcases List.mem_cons.1 hcx with rfl | hcy
    · decide
    · exact label_size (h2 y hy) c hcy

theorem wildcard_size {s : List Char} (h : DnsWildcard s) : ∀ c ∈ s, c.utf8Size = 1 := by
  obtain ⟨d, h1, rfl⟩ := h
  intro c hc
  simp only [List.mem_cons] at hc
  rcases hc with rfl | rfl | hc
  · decide
  · decide
  · exact domain_size h1 c hc

theorem dns_check (n : Nat) (r : RegularExpression Char) (P : List Char → Prop) (h : ∀ s, s ∈ r.matches' ↔ P s)
    (hs : ∀ s, P s → ∀ c ∈ s, c.utf8Size = 1) (s : List Char) :
    (!decide (byteLen s > n) && r.rmatch s) = true ↔ P s ∧ s.length ≤ n := by
  rw [Bool.and_eq_true, rmatch_iff_matches', h]
  constructor
  · rintro ⟨h1, h2⟩
    rw [byteLen_ascii (hs s h2)] at h1
    exact ⟨h2, by simpa using h1⟩
  · rintro ⟨h1, h2⟩
    refine ⟨?_, h1⟩
    rw [byteLen_ascii (hs s h1)]
    simpa using h2

theorem isDns1123Label_iff (s : List Char) : isDns1123Label s = true ↔ DnsLabel s ∧ s.length ≤ 63 :=
  dns_check 63 _ _ dns1123Label_iff (fun _ => label_size) s

theorem isDns1123Subdomain_iff (s : List Char) : isDns1123Subdomain s = true ↔ DnsDomain s ∧ s.length ≤ 253 :=
  dns_check 253 _ _ dns1123Subdomain_iff (fun _ => domain_size) s

theorem isWildcard_iff (s : List Char) : isWildcardDns1123Subdomain s = true ↔ DnsWildcard s ∧ s.length ≤ 253 :=
  dns_check 253 _ _ wildcard_iff (fun _ => wildcard_size) s

variable {E : Type} [DecidableEq E]

theorem byName_dns (L : VLib E) (op : String) (hop : op ∈ ["dnslabel", "dnsdomain", "wildcarddnsdomain", "dnsname"]) (args : List (Node E)) (cs) (v : Val E) :
    byName L op args cs v = vDns L op args v := by
  simp only [List.mem_cons, List.not_mem_nil, or_false] at hop
  rcases hop with rfl | rfl | rfl | rfl <;> rw [byName_plain _ _ _ _ _ (by decide +kernel)] <;> simp [handleString]

/-- **C71**: the validators accept exactly the texts of the described form: a label of at most 63 characters, a domain, a wildcard domain, and
either of the two, of at most 253 characters; other texts are rejected, and other values are an error. -/
theorem dns_conditions (L : VLib E) (args : List (Node E)) :
    (∀ s, vCond L (vnode "dnslabel" args) (.str s) = .ok true ↔ DnsLabel s.toList ∧ s.toList.length ≤ 63) ∧
    (∀ s, vCond L (vnode "dnsdomain" args) (.str s) = .ok true ↔ DnsDomain s.toList ∧ s.toList.length ≤ 253) ∧
    (∀ s, vCond L (vnode "wildcarddnsdomain" args) (.str s) = .ok true ↔ DnsWildcard s.toList ∧ s.toList.length ≤ 253) ∧
    (∀ s, vCond L (vnode "dnsname" args) (.str s) = .ok true ↔ (DnsDomain s.toList ∨ DnsWildcard s.toList) ∧ s.toList.length ≤ 253) ∧
    (∀ op ∈ ["dnslabel", "dnsdomain", "wildcarddnsdomain", "dnsname"],
      (∀ s, vCond L (vnode op args) (.str s) ≠ .ok true → vCond L (vnode op args) (.str s) = .ok false) ∧
      (∀ v : Val E, (∀ s, v ≠ .str s) → vCond L (vnode op args) v = .err)) := by
  have hb : ∀ b : Bool, VRes.ok b = .ok true ↔ b = true := by intro b; simp
  refine ⟨fun s => ?_, fun s => ?_, fun s => ?_, fun s => ?_, ?_⟩
  · rw [vCond_vnode, byName_dns _ _ (by simp), ← isDns1123Label_iff, ← hb]; simp [vDns, vString]
  · rw [vCond_vnode, byName_dns _ _ (by simp), ← isDns1123Subdomain_iff, ← hb]; simp [vDns, vString]
  · rw [vCond_vnode, byName_dns _ _ (by simp), ← isWildcard_iff, ← hb]; simp [vDns, vString]
  · rw [vCond_vnode, byName_dns _ _ (by simp)]
    simp only [vDns, vString, if_true, VRes.ok.injEq, Bool.or_eq_true, isWildcard_iff, isDns1123Subdomain_iff, or_and_right]
    exact or_comm
  · intro op hop
    have hv : ∃ p, ∀ v : Val E, vCond L (vnode op args) v = vString p v := by
      have h0 : ∀ v : Val E, vCond L (vnode op args) v = vDns L op args v := fun v => by rw [vCond_vnode, byName_dns _ _ hop]
      simp only [h0]
      simp only [List.mem_cons, List.not_mem_nil, or_false] at hop
      rcases hop with rfl | rfl | rfl | rfl
      · exact ⟨isDns1123Label, fun v => by simp [vDns]⟩
      · exact ⟨isDns1123Subdomain, fun v => by simp [vDns]⟩
      · exact ⟨isWildcardDns1123Subdomain, fun v => by simp [vDns]⟩
      · exact ⟨fun s => isWildcardDns1123Subdomain s || isDns1123Subdomain s, fun v => by simp [vDns]⟩
    obtain ⟨p, hp⟩ := hv
    constructor
    · intro s h
      rw [hp] at h ⊢
      simp only [vString] at h ⊢
      cases hps : p s.toList with
      | true => rw [hps] at h; exact absurd rfl h
      | false => rfl
    · intro v hv
      rw [hp]
      cases v <;> first | rfl | exact absurd rfl (hv _)

/-- **C71** (defect): the labels of a domain are not limited to 63 characters, although a single label is. -/
theorem dns_long_label_defect :
    (isDns1123Subdomain (List.replicate 64 'a') = true) ∧ (isDns1123Label (List.replicate 64 'a') = false) := by
  have hl : DnsLabel (List.replicate 64 'a') := by
    refine ⟨by simp, ?_, ?_, ?_⟩
    · intro c hc
      rw [List.eq_of_mem_replicate hc]
      exact .inl (.inl (by decide))
    · decide
    · decide
  constructor
  · rw [isDns1123Subdomain_iff]
    exact ⟨⟨_, [], hl, by simp, by simp⟩, by simp⟩
  · rw [← Bool.not_eq_true, isDns1123Label_iff]
    intro h
    simp at h

/-- some names -/
example : isDns1123Label "my-name".toList = true ∧ isDns1123Label "My".toList = false ∧ isDns1123Label "-a".toList = false ∧
    isDns1123Subdomain "a.b-c.d".toList = true ∧ isDns1123Subdomain "a..b".toList = false ∧
    isWildcardDns1123Subdomain "*.a.b".toList = true ∧ isWildcardDns1123Subdomain "*a.b".toList = false := by decide +kernel

end Spiff
