import Verif.Spec.PubKeys
/-
C103: the functions for keys.
-/
namespace Spiff
open Spec

section
variable {RP CP R C Cert E : Type} {L : PemLib RP CP R C Cert}

theorem rsaPrivate_iff {s : String} {k : RP} : pemPrivate L s = some (.rsa k) ↔ RSAPrivate L s k := by
  unfold pemPrivate RSAPrivate
  cases hd : L.decode s with
  | none => simp
  | some p =>
    rcases p with ⟨t, b⟩
    by_cases h1 : t = "RSA PRIVATE KEY"
    · subst h1; simp
    · by_cases h2 : t = "EC PRIVATE KEY"
      · subst h2; simp
      · simp [h1, h2]

theorem ecPrivate_iff {s : String} {k : CP} : pemPrivate L s = some (.ecdsa k) ↔ ECPrivate L s k := by
  unfold pemPrivate ECPrivate
  cases hd : L.decode s with
  | none => simp
  | some p =>
    rcases p with ⟨t, b⟩
    by_cases h1 : t = "RSA PRIVATE KEY"
    · subst h1; simp
    · by_cases h2 : t = "EC PRIVATE KEY"
      · subst h2; simp
      · simp [h1, h2]

theorem noPrivate_iff {s : String} : pemPrivate L s = none ↔ (∀ k, ¬ RSAPrivate L s k) ∧ ∀ k, ¬ ECPrivate L s k := by
  constructor
  · intro h
    exact ⟨fun k hk => (by rw [rsaPrivate_iff.2 hk] at h; cases h), fun k hk => (by rw [ecPrivate_iff.2 hk] at h; cases h)⟩
  · rintro ⟨h1, h2⟩
    cases h : pemPrivate L s with
    | none => rfl
    | some k =>
      cases k with
      | rsa k => exact absurd (rsaPrivate_iff.1 h) (h1 k)
      | ecdsa k => exact absurd (ecPrivate_iff.1 h) (h2 k)

theorem publicBlock_iff {s : String} {k : AnyPub R C} : pemPublic L s = some k ↔ PublicBlock L s k := by
  unfold pemPublic PublicBlock
  cases hd : L.decode s with
  | none => simp
  | some p =>
    rcases p with ⟨t, b⟩
    cases hp : L.parsePKIX b with
    | none =>
      simp only [hp, Option.map_eq_some_iff, Option.some.injEq, Prod.mk.injEq]
      constructor
      · rintro ⟨r, hr, rfl⟩; exact ⟨t, b, ⟨rfl, rfl⟩, .inr ⟨hp, r, hr, rfl⟩⟩
      · rintro ⟨t', b', ⟨rfl, rfl⟩, h | ⟨_, r, hr, rfl⟩⟩
        · rw [hp] at h; exact absurd h.1 (by simp)
        · exact ⟨r, hr, rfl⟩
    | some q =>
      have : (∃ t' b', some (t, b) = some (t', b') ∧ ((L.parsePKIX b' = some k ∧ k ≠ .other) ∨ (L.parsePKIX b' = none ∧ ∃ r, L.parsePKCS1Pub b' = some r ∧ k = .rsa r))) ↔ q = k ∧ k ≠ .other := by
        constructor
        · rintro ⟨t', b', e, h | ⟨h, _⟩⟩
          · injection e with e; injection e with _ e; subst e
            rw [hp] at h; exact ⟨Option.some.inj h.1, h.2⟩
          · injection e with e; injection e with _ e; subst e
            rw [hp] at h; cases h
        · rintro ⟨rfl, h⟩; exact ⟨t, b, rfl, .inl ⟨hp, h⟩⟩
      rw [this]
      cases q <;> simp [hp] <;> (try (rintro rfl; simp))

theorem certBlock_iff {s : String} {c : Cert} : pemCert L s = some c ↔ CertBlock L s c := by
  unfold pemCert CertBlock
  cases hd : L.decode s with
  | none => simp
  | some p =>
    rcases p with ⟨t, b⟩
    by_cases h1 : t = "CERTIFICATE"
    · subst h1; simp
    · simp [h1]

theorem publicOfPublic_showable {k : AnyPub R C} (h : Showable k) : publicOfPublic k = k := by
  cases k <;> first | rfl | exact absurd rfl h.1 | exact absurd rfl h.2

theorem publicOfPublic_eq {k k' : AnyPub R C} (h : Showable k') : publicOfPublic k = k' ↔ k = k' := by
  constructor
  · rintro rfl
    cases k with
    | rsa => rfl
    | ecdsa => rfl
    | dsa => exact absurd rfl h.2
    | other => rfl
  · rintro rfl; exact publicOfPublic_showable h

theorem keyOfText_iff {s : String} {k : AnyPub R C} (hk : Showable k) : keyOfText L s = some k ↔ TextKey L s k := by
  unfold keyOfText
  constructor
  · intro h
    cases hp : pemPrivate L s with
    | some p =>
      rw [hp] at h
      cases p with
      | rsa r => rw [← Option.some.inj h]; exact .rsa (rsaPrivate_iff.1 hp)
      | ecdsa r => rw [← Option.some.inj h]; exact .ecdsa (ecPrivate_iff.1 hp)
    | none =>
      rw [hp] at h
      obtain ⟨n1, n2⟩ := noPrivate_iff.1 hp
      cases hq : pemPublic L s with
      | some q =>
        rw [hq] at h
        have := (publicOfPublic_eq hk).1 (Option.some.inj h)
        subst this
        exact .pub n1 n2 (publicBlock_iff.1 hq)
      | none =>
        rw [hq] at h
        obtain ⟨c, hc, e⟩ := Option.map_eq_some_iff.1 h
        rw [← (publicOfPublic_eq hk).1 e]
        exact .cert n1 n2 (fun k h => by rw [publicBlock_iff.2 h] at hq; cases hq) (certBlock_iff.1 hc)
  · intro h
    cases h with
    | rsa h => rw [rsaPrivate_iff.2 h]; rfl
    | ecdsa h => rw [ecPrivate_iff.2 h]; rfl
    | pub n1 n2 h => rw [noPrivate_iff.2 ⟨n1, n2⟩, publicBlock_iff.2 h]; simp only [publicOfPublic_showable hk]
    | cert n1 n2 n3 h =>
      have : pemPublic L s = none := by
        cases hq : pemPublic L s with
        | none => rfl
        | some q => exact absurd (publicBlock_iff.1 hq) (n3 q)
      rw [noPrivate_iff.2 ⟨n1, n2⟩, this, certBlock_iff.2 h]
      simp only [Option.map_some, publicOfPublic_showable hk]

theorem keyText_showable {fmt : String} {k : AnyPub R C} {t : String} (h : PublicText L fmt k t) : Showable k := by
  cases h with
  | ssh h _ => exact h
  | _ => exact ⟨by simp, by simp⟩

theorem keyOfText_notDsa (s : String) : keyOfText L s ≠ some .dsa := by
  unfold keyOfText
  intro h
  split at h
  · rename_i k _; cases k <;> simp [publicOfPrivate] at h
  · split at h
    · rename_i k _; cases k <;> simp [publicOfPublic] at h
    · obtain ⟨c, _, h⟩ := Option.map_eq_some_iff.1 h
      cases hk : L.certKey c <;> rw [hk] at h <;> simp [publicOfPublic] at h

theorem key_text_pem {s : String} {k : AnyPub R C} (h : keyOfText L s = some k) : publicKeyText (E := E) L "pem" s = publicPem L false k := by
  simp only [publicKeyText, h, if_true]
theorem key_text_pkix {s : String} {k : AnyPub R C} (h : keyOfText L s = some k) : publicKeyText (E := E) L "pkix" s = publicPem L true k := by
  simp only [publicKeyText, h, if_true]
  rw [if_neg (by decide)]
theorem key_text_ssh {s : String} {k : AnyPub R C} (h : keyOfText L s = some k) :
    publicKeyText (E := E) L "ssh" s = (match L.ssh k with | some t => .ok (.str t) | none => .err) := by
  simp only [publicKeyText, h]
  rw [if_neg (by decide), if_neg (by decide)]
  cases L.ssh k <;> rfl

theorem publicKeyText_iff (hn : L.ssh .other = none) {fmt : String} (hf : fmt = "pem" ∨ fmt = "ssh" ∨ fmt = "pkix") (s : String) (x : Val E) :
    publicKeyText L fmt s = .ok x ↔ ∃ k t, TextKey L s k ∧ PublicText L fmt k t ∧ x = .str t := by
  constructor
  · intro h
    cases hk : keyOfText L s with
    | none => simp only [publicKeyText, hk] at h; cases h
    | some k =>
      have hd := keyOfText_notDsa (L := L) s
      rw [hk] at hd
      have hs : k ≠ .other → Showable k := fun h => ⟨fun e => hd (by rw [e]), h⟩
      rcases hf with rfl | rfl | rfl
      · rw [key_text_pem hk] at h
        cases k with
        | rsa r => simp [publicPem] at h; exact ⟨_, _, (keyOfText_iff (hs (by simp))).1 hk, .rsa r, h.symm⟩
        | ecdsa r =>
          simp only [publicPem] at h
          split at h
          · rename_i b hb
            injection h with h
            exact ⟨_, _, (keyOfText_iff (hs (by simp))).1 hk, .ecdsa hb, h.symm⟩
          · cases h
        | dsa => cases h
        | other => cases h
      · rw [key_text_ssh hk] at h
        split at h
        · rename_i t ht
          injection h with h
          have ho : k ≠ .other := fun e => by rw [e, hn] at ht; cases ht
          exact ⟨_, _, (keyOfText_iff (hs ho)).1 hk, .ssh (hs ho) ht, h.symm⟩
        · cases h
      · rw [key_text_pkix hk] at h
        cases k with
        | rsa r =>
          simp only [publicPem, if_true] at h
          split at h
          · rename_i b hb
            injection h with h
            exact ⟨_, _, (keyOfText_iff (hs (by simp))).1 hk, .rsaPKIX hb, h.symm⟩
          · cases h
        | ecdsa r =>
          simp only [publicPem] at h
          split at h
          · rename_i b hb
            injection h with h
            exact ⟨_, _, (keyOfText_iff (hs (by simp))).1 hk, .ecdsaPKIX hb, h.symm⟩
          · cases h
        | dsa => cases h
        | other => cases h
  · rintro ⟨k, t, h1, h2, rfl⟩
    have hk := (keyOfText_iff (keyText_showable h2)).2 h1
    cases h2 with
    | rsa r => rw [key_text_pem hk]; rfl
    | rsaPKIX h => rw [key_text_pkix hk]; simp only [publicPem, if_true, h]
    | ecdsa h => rw [key_text_pem hk]; simp only [publicPem, h]
    | ecdsaPKIX h => rw [key_text_pkix hk]; simp only [publicPem, h]
    | ssh _ h => rw [key_text_ssh hk]; simp only [h]

theorem publicKey_args (args : List (Val E)) : (∃ s fmt, KeyArgs L args s fmt ∧ funcX509PublicKey L args = publicKeyText L fmt s) ∨
    ((∀ s fmt, ¬ KeyArgs L args s fmt) ∧ funcX509PublicKey L args = .err) := by
  have hnot : (∀ s, args ≠ [.str s]) → (∀ s f, args = [.str s, .str f] → ¬ (L.lower f = "pem" ∨ L.lower f = "ssh" ∨ L.lower f = "pkix")) → ∀ s fmt, ¬ KeyArgs L args s fmt := by
    rintro h1 h2 s fmt (⟨e, _⟩ | ⟨f, e, rfl, hf⟩)
    · exact h1 s e
    · exact h2 s f e hf
  match args with
  | [] => exact .inr ⟨hnot (by simp) (by simp), rfl⟩
  | [a] =>
    cases a with
    | str s => exact .inl ⟨s, "pem", .inl ⟨rfl, rfl⟩, rfl⟩
    | _ => exact .inr ⟨hnot (by simp) (by simp), rfl⟩
  | [a, b] =>
    cases b with
    | str f =>
      by_cases hf : L.lower f = "pem" ∨ L.lower f = "ssh" ∨ L.lower f = "pkix"
      · cases a with
        | str s => exact .inl ⟨s, L.lower f, .inr ⟨f, rfl, rfl, hf⟩, by simp only [funcX509PublicKey, if_pos hf]⟩
        | _ => exact .inr ⟨hnot (by simp) (by simp), by simp only [funcX509PublicKey, if_pos hf]⟩
      · refine .inr ⟨hnot (by simp) ?_, by simp only [funcX509PublicKey, if_neg hf]⟩
        intro s f' e
        injection e with _ e; injection e with e _; injection e with e
        exact e ▸ hf
    | _ => exact .inr ⟨hnot (by simp) (by simp), by cases a <;> rfl⟩
  | _ :: _ :: _ :: _ => exact .inr ⟨hnot (by simp) (by simp), by simp only [funcX509PublicKey]⟩

theorem keyArgs_unique {args : List (Val E)} {s s' f f' : String} (h : KeyArgs L args s f) (h' : KeyArgs L args s' f') : s = s' ∧ f = f' := by
  rcases h with ⟨rfl, rfl⟩ | ⟨g, rfl, rfl, _⟩ <;> rcases h' with ⟨e, rfl⟩ | ⟨g', e, rfl, _⟩
  · injection e with e _; injection e with e; exact ⟨e, rfl⟩
  · injection e with _ e; cases e
  · injection e with _ e; cases e
  · injection e with e1 e; injection e1 with e1; injection e with e2 _; injection e2 with e2; exact ⟨e1, e2 ▸ rfl⟩

theorem keyArgs_format {args : List (Val E)} {s f : String} (h : KeyArgs L args s f) : f = "pem" ∨ f = "ssh" ∨ f = "pkix" := by
  rcases h with ⟨_, rfl⟩ | ⟨_, _, _, h⟩
  · exact .inl rfl
  · exact h

/-- **C103**: `x509publickey` yields the public key of a text in the format -/
theorem x509publickey_iff (hL : PemLaws L) (args : List (Val E)) (x : Val E) :
    funcX509PublicKey L args = .ok x ↔ ∃ s fmt k t, KeyArgs L args s fmt ∧ TextKey L s k ∧ PublicText L fmt k t ∧ x = .str t := by
  rcases publicKey_args (L := L) args with ⟨s, fmt, ha, he⟩ | ⟨hn, he⟩
  · rw [he, publicKeyText_iff hL.noOther (keyArgs_format ha)]
    constructor
    · rintro ⟨k, t, h⟩; exact ⟨s, fmt, k, t, ha, h⟩
    · rintro ⟨s', f', k, t, ha', h⟩
      obtain ⟨rfl, rfl⟩ := keyArgs_unique ha ha'
      exact ⟨k, t, h⟩
  · rw [he]
    constructor
    · intro h; cases h
    · rintro ⟨s, fmt, _, _, ha, _⟩; exact absurd ha (hn s fmt)

/-- **C103**: the public key of a public key is the same: whatever format is requested from the text obtained, the result is that for the original text. -/
theorem publickey_same (hL : PemLaws L) {args : List (Val E)} {s fmt t : String} (ha : KeyArgs L args s fmt) (hf : fmt ≠ "ssh") (h : funcX509PublicKey L args = .ok (.str t)) (g : String) :
    funcX509PublicKey (E := E) L [.str t] = funcX509PublicKey L [.str s] ∧ funcX509PublicKey (E := E) L [.str t, .str g] = funcX509PublicKey L [.str s, .str g] := by
  obtain ⟨s', fmt', k, t', ha', hk, ht, e⟩ := (x509publickey_iff hL args _).1 h
  obtain ⟨rfl, rfl⟩ := keyArgs_unique ha ha'
  injection e with e; subst e
  have hs := keyText_showable ht
  have hpub : ∀ ty b, ty ≠ "RSA PRIVATE KEY" → ty ≠ "EC PRIVATE KEY" → ((L.parsePKIX b = some k) ∨ (L.parsePKIX b = none ∧ ∃ r, L.parsePKCS1Pub b = some r ∧ k = .rsa r)) →
      TextKey L (L.encode ty b) k := by
    intro ty b h1 h2 h3
    refine .pub (fun k => ?_) (fun k => ?_) ⟨ty, b, hL.block ty b, h3.imp (fun h => ⟨h, hs.2⟩) id⟩
    · rintro ⟨b', hb, _⟩; rw [hL.block] at hb; injection hb with hb; injection hb with hb _; exact h1 hb
    · rintro ⟨b', hb, _⟩; rw [hL.block] at hb; injection hb with hb; injection hb with hb _; exact h2 hb
  have key : TextKey L t k := by
    cases ht with
    | rsa r => exact hpub _ _ (by decide) (by decide) (.inr ⟨(hL.pkcs1 r).1, r, (hL.pkcs1 r).2, rfl⟩)
    | rsaPKIX h' => exact hpub _ _ (by decide) (by decide) (.inl (hL.pkix _ _ h'))
    | ecdsa h' => exact hpub _ _ (by decide) (by decide) (.inl (hL.pkix _ _ h'))
    | ecdsaPKIX h' => exact hpub _ _ (by decide) (by decide) (.inl (hL.pkix _ _ h'))
    | ssh => exact absurd rfl hf
  have e1 := (keyOfText_iff hs).2 key
  have e2 := (keyOfText_iff hs).2 hk
  have e3 : ∀ f, publicKeyText (E := E) L f t = publicKeyText L f s := by
    intro f; unfold publicKeyText; rw [e1, e2]
  refine ⟨e3 "pem", ?_⟩
  simp only [funcX509PublicKey, e3]

/-- **C103**: a DSA key, or a certificate with a key of another type, makes the function panic, but for the format `ssh`, where it is an error; no other text makes it panic if
keys can be marshalled. -/
theorem publickey_panics (hm : ∀ k : AnyPub R C, Showable k → ∃ b, L.marshalPKIX k = some b) {args : List (Val E)} {s fmt : String} (ha : KeyArgs L args s fmt) :
    funcX509PublicKey L args = .panic ↔ fmt ≠ "ssh" ∧ ∃ k, TextKey L s k ∧ ¬ Showable k := by
  obtain ⟨s', fmt', ha', he⟩ : ∃ s fmt, KeyArgs L args s fmt ∧ funcX509PublicKey L args = publicKeyText L fmt s := by
    rcases publicKey_args (L := L) args with h | ⟨hn, _⟩
    · exact h
    · exact absurd ha (hn _ _)
  obtain ⟨rfl, rfl⟩ := keyArgs_unique ha ha'
  have hother : keyOfText L s = some .other ↔ ∃ k, TextKey L s k ∧ ¬ Showable k := by
    constructor
    · intro h
      unfold keyOfText at h
      split at h
      · rename_i k _; cases k <;> simp [publicOfPrivate] at h
      · rename_i hp
        obtain ⟨n1, n2⟩ := noPrivate_iff.1 hp
        split at h
        · rename_i k hq
          refine ⟨k, .pub n1 n2 (publicBlock_iff.1 hq), fun hs => ?_⟩
          rw [publicOfPublic_showable hs] at h
          exact hs.2 (Option.some.inj h)
        · rename_i hq
          obtain ⟨c, hc, e⟩ := Option.map_eq_some_iff.1 h
          refine ⟨_, .cert n1 n2 (fun k h => by rw [publicBlock_iff.2 h] at hq; cases hq) (certBlock_iff.1 hc), fun hs => ?_⟩
          rw [publicOfPublic_showable hs] at e
          exact hs.2 e
    · rintro ⟨k, hk, hs⟩
      have : ∀ k : AnyPub R C, ¬ Showable k → publicOfPublic k = .other := by
        intro k h
        cases k with
        | rsa => exact absurd ⟨by simp, by simp⟩ h
        | ecdsa => exact absurd ⟨by simp, by simp⟩ h
        | dsa => rfl
        | other => rfl
      unfold keyOfText
      cases hk with
      | rsa h => exact absurd ⟨by simp, by simp⟩ hs
      | ecdsa h => exact absurd ⟨by simp, by simp⟩ hs
      | pub n1 n2 h => rw [noPrivate_iff.2 ⟨n1, n2⟩, publicBlock_iff.2 h]; simp only [this _ hs]
      | cert n1 n2 n3 h =>
        have hq : pemPublic L s = none := by
          cases hq : pemPublic L s with
          | none => rfl
          | some q => exact absurd (publicBlock_iff.1 hq) (n3 q)
        rw [noPrivate_iff.2 ⟨n1, n2⟩, hq, certBlock_iff.2 h]
        simp only [Option.map_some, this _ hs]
  rw [he, ← hother]
  have hp : ∀ pkix (k : AnyPub R C), k ≠ .dsa → (publicPem (E := E) L pkix k = .panic ↔ k = .other) := by
    intro pkix k hd
    cases k with
    | rsa r =>
      obtain ⟨b, hb⟩ := hm (.rsa r) ⟨by simp, by simp⟩
      cases pkix <;> simp [publicPem, hb]
    | ecdsa r =>
      obtain ⟨b, hb⟩ := hm (.ecdsa r) ⟨by simp, by simp⟩
      cases pkix <;> simp [publicPem, hb]
    | dsa => exact absurd rfl hd
    | other => simp [publicPem]
  unfold publicKeyText
  cases hk : keyOfText L s with
  | none => simp
  | some k =>
    have hd : k ≠ .dsa := fun e => keyOfText_notDsa (L := L) s (e ▸ hk)
    rcases keyArgs_format ha with rfl | rfl | rfl
    · simp [hp _ _ hd]
    · simp
      cases L.ssh k <;> simp
    · simp [hp _ _ hd]

theorem bitsOf_iff {s : String} {n : Int} : bitsOf s = some n ↔ parseInt s = some n ∧ -2147483648 ≤ n ∧ n ≤ 2147483647 := by
  unfold bitsOf
  cases h : parseInt s with
  | none => simp
  | some i =>
    simp only [Option.ite_none_right_eq_some, Option.some.injEq]
    constructor
    · rintro ⟨h1, rfl⟩; exact ⟨rfl, h1.1, by omega⟩
    · rintro ⟨rfl, h1, h2⟩; exact ⟨⟨h1, by omega⟩, rfl⟩

/-- **C103**: `x509genkey` yields an RSA key of the requested size or an ECDSA key for the requested curve -/
theorem x509genkey_iff (args : List (Val E)) (x : Val E) :
    funcX509GenKey L args = .ok x ↔ (∃ n k, KeyRequest E args (.inl n) ∧ L.generateRSA n = some k ∧ x = .str (L.encode "RSA PRIVATE KEY" (L.marshalPKCS1Priv k))) ∨
      ∃ c k b, KeyRequest E args (.inr c) ∧ L.generateECDSA c = some k ∧ L.marshalECPriv k = some b ∧ x = .str (L.encode "EC PRIVATE KEY" b) := by
  have hrsa : ∀ n, genRSA (E := E) L n = .ok x ↔ ∃ k, L.generateRSA n = some k ∧ x = .str (L.encode "RSA PRIVATE KEY" (L.marshalPKCS1Priv k)) := by
    intro n
    unfold genRSA
    cases L.generateRSA n <;> simp [eq_comm]
  have hec : ∀ c, genECDSA (E := E) L c = .ok x ↔ c ∈ ["P224", "P256", "P384", "P521"] ∧ ∃ k b, L.generateECDSA c = some k ∧ L.marshalECPriv k = some b ∧ x = .str (L.encode "EC PRIVATE KEY" b) := by
    intro c
    unfold genECDSA
    have hc : (c = "P224" ∨ c = "P256" ∨ c = "P384" ∨ c = "P521") ↔ c ∈ ["P224", "P256", "P384", "P521"] := by simp
    by_cases h : c ∈ ["P224", "P256", "P384", "P521"]
    · rw [if_pos (hc.2 h)]
      cases hk : L.generateECDSA c with
      | none => simp
      | some k =>
        cases hb : L.marshalECPriv k with
        | none => simp [hb]
        | some b => simp [hb, eq_comm]; exact fun _ => by simpa using h
    · rw [if_neg (fun h' => h (hc.1 h'))]
      simp only [reduceCtorEq, false_iff]
      exact fun h' => h h'.1
  have hnone : ∀ c ∈ ["P224", "P256", "P384", "P521"], parseInt c = none := by decide +kernel
  have hempty : parseInt "" = none := by decide +kernel
  constructor
  · intro h
    unfold funcX509GenKey at h
    split at h
    · obtain ⟨k, h1, h2⟩ := (hrsa _).1 h
      exact .inl ⟨_, k, .default, h1, h2⟩
    · rename_i n
      obtain ⟨k, h1, h2⟩ := (hrsa _).1 h
      exact .inl ⟨_, k, .bits n, h1, h2⟩
    · rename_i s
      split at h
      · rename_i n hn
        obtain ⟨k, h1, h2⟩ := (hrsa _).1 h
        obtain ⟨a1, a2, a3⟩ := bitsOf_iff.1 hn
        exact .inl ⟨_, k, .text a1 a2 a3, h1, h2⟩
      · split at h
        · rename_i he
          obtain ⟨k, h1, h2⟩ := (hrsa _).1 h
          exact .inl ⟨_, k, he ▸ .empty, h1, h2⟩
        · obtain ⟨h0, k, b, h1, h2, h3⟩ := (hec _).1 h
          exact .inr ⟨_, k, b, .curve s h0, h1, h2, h3⟩
    · cases h
  · rintro (⟨n, k, hr, h⟩ | ⟨c, k, b, hr, h⟩)
    · have h' := (hrsa n).2 ⟨k, h⟩
      generalize hq : (Sum.inl n : Int ⊕ String) = q at hr
      cases hr with
      | default => injection hq with hq; subst hq; exact h'
      | bits m => injection hq with hq; subst hq; exact h'
      | text a1 a2 a3 =>
        injection hq with hq; subst hq
        simp only [funcX509GenKey, bitsOf_iff.2 ⟨a1, a2, a3⟩]
        exact h'
      | empty =>
        injection hq with hq; subst hq
        have : bitsOf "" = none := by unfold bitsOf; rw [hempty]
        simp only [funcX509GenKey, this, if_true]
        exact h'
      | curve s hs => cases hq
    · generalize hq : (Sum.inr c : Int ⊕ String) = q at hr
      cases hr with
      | curve s hs =>
        injection hq with hq; subst hq
        have h' := (hec c).2 ⟨hs, k, b, h⟩
        have hp : bitsOf c = none := by unfold bitsOf; rw [hnone c hs]
        have hne : c ≠ "" := by rintro rfl; exact absurd hs (by decide)
        simp only [funcX509GenKey, hp, if_neg hne]
        exact h'
      | _ => cases hq

/-- **C103**: the public key of a generated key is the one of its private key. -/
theorem genkey_publickey (hL : PemLaws L) {args : List (Val E)} {x : Val E} (h : funcX509GenKey L args = .ok x) :
    ∃ s, x = .str s ∧ ((∃ n k, KeyRequest E args (.inl n) ∧ L.generateRSA n = some k ∧ TextKey L s (.rsa (L.rsaPub k))) ∨
      ∃ c k, KeyRequest E args (.inr c) ∧ L.generateECDSA c = some k ∧ TextKey L s (.ecdsa (L.ecdsaPub k))) := by
  rcases (x509genkey_iff args x).1 h with ⟨n, k, h1, h2, rfl⟩ | ⟨c, k, b, h1, h2, h3, rfl⟩
  · exact ⟨_, rfl, .inl ⟨n, k, h1, h2, .rsa ⟨_, hL.block _ _, hL.rsa k⟩⟩⟩
  · exact ⟨_, rfl, .inr ⟨c, k, h1, h2, .ecdsa ⟨_, hL.block _ _, hL.ec k b h3⟩⟩⟩

end

/-! ### a library -/
/-- keys are Booleans; a block is written as its bytes as letters, a blank and its type -/
def toyPem : PemLib Bool Bool Bool Bool (AnyPub Bool Bool) where
  encode t b := String.ofList (b.map (fun c => Char.ofNat (c.toNat + 64)) ++ ' ' :: t.toList)
  decode s :=
    match s.toList.dropWhile (· ≠ ' ') with
    | _ :: t => some (String.ofList t, (s.toList.takeWhile (· ≠ ' ')).map (fun c => UInt8.ofNat (c.toNat - 64)))
    | [] => none
  parsePKCS1Priv b := if b = [48] then some false else if b = [49] then some true else none
  parseECPriv b := if b = [48] then some false else if b = [49] then some true else none
  marshalPKCS1Priv k := if k then [49] else [48]
  marshalECPriv k := some (if k then [49] else [48])
  rsaPub k := !k
  ecdsaPub k := k
  parsePKIX b := if b = [50] then some (.rsa false) else if b = [51] then some (.rsa true) else if b = [52] then some (.ecdsa false) else if b = [53] then some (.ecdsa true)
    else if b = [54] then some .dsa else if b = [55] then some .other else none
  parsePKCS1Pub b := if b = [56] then some false else if b = [57] then some true else none
  marshalPKCS1Pub k := if k then [57] else [56]
  marshalPKIX
    | .rsa k => some (if k then [51] else [50])
    | .ecdsa k => some (if k then [53] else [52])
    | .dsa => some [54]
    | .other => some [55]
  parseCert b := if b = [97] then some .other else if b = [98] then some (.rsa true) else none
  certKey c := c
  ssh
    | .rsa _ => some "ssh-rsa"
    | .ecdsa _ => some "ecdsa"
    | .dsa => some "ssh-dss"
    | .other => none
  lower s := if s = "Pkix" then "pkix" else s
  generateRSA n := if n < 1 then none else some (n == 2048)
  generateECDSA c := some (c == "P256")

theorem toy_char : ∀ n < 256, (Char.ofNat (n + 64)).toNat = n + 64 ∧ Char.ofNat (n + 64) ≠ ' ' := by decide +kernel

theorem toy_block (t : List Char) : ∀ b : List UInt8, (b.map (fun c => Char.ofNat (c.toNat + 64)) ++ ' ' :: t).takeWhile (· ≠ ' ') = b.map (fun c => Char.ofNat (c.toNat + 64)) ∧
    (b.map (fun c => Char.ofNat (c.toNat + 64)) ++ ' ' :: t).dropWhile (· ≠ ' ') = ' ' :: t
  | [] => by simp
  | c :: b => by
    obtain ⟨h1, h2⟩ := toy_block t b
    have hc := (toy_char c.toNat c.toNat_lt).2
    constructor
    · rw [List.map_cons, List.cons_append, List.takeWhile_cons_of_pos (by simpa using hc), h1]
    · rw [List.map_cons, List.cons_append, List.dropWhile_cons_of_pos (by simpa using hc), h2]

theorem toy_pem_laws : PemLaws toyPem where
  block t b := by
    obtain ⟨h1, h2⟩ := toy_block t.toList b
    simp only [toyPem, String.toList_ofList]
    rw [h1, h2]
    simp only [String.ofList_toList, List.map_map, Option.some.injEq, Prod.mk.injEq, true_and]
    have : ((fun c : Char => UInt8.ofNat (c.toNat - 64)) ∘ fun c : UInt8 => Char.ofNat (c.toNat + 64)) = id := by
      funext c
      simp only [Function.comp, (toy_char c.toNat c.toNat_lt).1, Nat.add_sub_cancel, UInt8.ofNat_toNat, id]
    rw [this, List.map_id]
  pkix := by
    intro k b h
    cases k with
    | rsa k => cases k <;> (cases h; rfl)
    | ecdsa k => cases k <;> (cases h; rfl)
    | dsa => cases h; rfl
    | other => cases h; rfl
  pkcs1 := by intro k; cases k <;> exact ⟨rfl, rfl⟩
  rsa := by intro k; cases k <;> rfl
  ec := by intro k b h; cases k <;> (cases h; rfl)
  noOther := rfl

/-- a DSA key, and a certificate with a key of another type, make the function panic -/
example : funcX509PublicKey (E := Unit) toyPem [.str "v PUBLIC KEY"] = .panic := rfl
example : toyPem.decode "v PUBLIC KEY" = some ("PUBLIC KEY", [54]) := by decide +kernel
example : ∃ t, funcX509GenKey (E := Unit) toyPem [.str "P256"] = .ok (.str t) ∧ t = "q EC PRIVATE KEY" := ⟨_, rfl, by decide +kernel⟩
example : funcX509GenKey (E := Unit) toyPem [.str "P255"] = .err := rfl

/-- the hypotheses of `publickey_same` are met: the public key of a generated key, in the general format, for which the own format can be requested again -/
theorem toy_keys : ∃ s t, funcX509GenKey (E := Unit) toyPem [] = .ok (.str s) ∧ funcX509PublicKey (E := Unit) toyPem [.str s, .str "Pkix"] = .ok (.str t) ∧
    KeyArgs (E := Unit) toyPem [.str s, .str "Pkix"] s "pkix" ∧ t = "r PUBLIC KEY" ∧ (∀ u, funcX509PublicKey (E := Unit) toyPem [.str t] = .ok (.str u) ↔ u = "x RSA PUBLIC KEY") := by
  have hp : PemLaws toyPem := toy_pem_laws
  have hs : funcX509GenKey (E := Unit) toyPem [] = .ok (.str (toyPem.encode "RSA PRIVATE KEY" [49])) := rfl
  have hk : TextKey toyPem (toyPem.encode "RSA PRIVATE KEY" [49]) (.rsa false) := .rsa (k := true) ⟨[49], hp.block _ _, rfl⟩
  have ha : KeyArgs (E := Unit) toyPem [.str (toyPem.encode "RSA PRIVATE KEY" [49]), .str "Pkix"] (toyPem.encode "RSA PRIVATE KEY" [49]) "pkix" :=
    .inr ⟨"Pkix", rfl, rfl, .inr (.inr rfl)⟩
  have ht : funcX509PublicKey (E := Unit) toyPem [.str (toyPem.encode "RSA PRIVATE KEY" [49]), .str "Pkix"] = .ok (.str (toyPem.encode "PUBLIC KEY" [50])) :=
    (x509publickey_iff hp _ _).2 ⟨_, _, _, _, ha, hk, .rsaPKIX rfl, rfl⟩
  refine ⟨_, _, hs, ht, ha, by decide +kernel, fun u => ?_⟩
  have hx : toyPem.encode "RSA PUBLIC KEY" (toyPem.marshalPKCS1Pub false) = "x RSA PUBLIC KEY" := by decide +kernel
  have h0 : funcX509PublicKey (E := Unit) toyPem [.str (toyPem.encode "RSA PRIVATE KEY" [49])] = .ok (.str "x RSA PUBLIC KEY") :=
    (x509publickey_iff hp _ _).2 ⟨_, _, _, _, .inl ⟨rfl, rfl⟩, hk, .rsa false, by rw [hx]⟩
  rw [(publickey_same hp ha (by decide) ht "").1, h0]
  constructor
  · intro h; injection h with h; injection h with h; exact h.symm
  · rintro rfl; rfl

end Spiff
