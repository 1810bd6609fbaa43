import Verif.Spec.Checks
import Verif.Props.Validate2
import Verif.Props.PubKeys
/-
C107: validators for keys, certificates, addresses and patterns.
-/
namespace Spiff
open Spec

section
variable {Re RP CP R C Cert E : Type} [DecidableEq E] (L : PemLib RP CP R C Cert) (T : CheckLib Re Cert)
  (lambda floats : String → Val E → List (Val E) → VRes)

/-- the names of the validators of C107 -/
def checkNames : List String := ["match", "~=", "ip", "cidr", "publickey", "privatekey", "certificate", "ca"]

theorem check_name : ∀ op ∈ checkNames, validatorName op = some (op, false) := by decide +kernel

theorem check_rest {op : String} (h : op ∈ checkNames) (args : List (Node E)) (v : Val E) :
    vCond (checkLib L T lambda floats) (vnode op args) v = vRest L T op v (args.map Node.val) := by
  rw [vCond_vnode, byName_plain _ _ _ _ _ (check_name op h)]
  simp only [checkNames, List.mem_cons, List.not_mem_nil, or_false] at h
  rcases h with rfl | rfl | rfl | rfl | rfl | rfl | rfl | rfl <;> rfl

theorem condition_name {op : String} {args : List (Val E)} {P : String → Prop} (h : TextCondition L T op args P) : op ∈ checkNames := by
  cases h with
  | pattern _ _ _ ho _ => rcases ho with rfl | rfl <;> decide
  | _ => decide

theorem vText_of (p : String → Bool) (P : String → Prop) (h : ∀ s, p s = true ↔ P s) (v : Val E) :
    (vText p v = .ok true ↔ ∃ s, v = .str s ∧ P s) ∧ (vText p v = .ok false ↔ ∃ s, v = .str s ∧ ¬ P s) ∧ (vText p v = .err ↔ ∀ s, v ≠ .str s) := by
  cases v with
  | str s =>
    have h := h s
    cases hp : p s <;> simp_all [vText]
  | _ => simp [vText]

theorem private_isSome (s : String) : (pemPrivate L s).isSome = true ↔ (∃ k, RSAPrivate L s k) ∨ ∃ k, ECPrivate L s k := by
  constructor
  · intro h
    cases hp : pemPrivate L s with
    | none => rw [hp] at h; cases h
    | some k => cases k with
      | rsa k => exact .inl ⟨k, rsaPrivate_iff.1 hp⟩
      | ecdsa k => exact .inr ⟨k, ecPrivate_iff.1 hp⟩
  · rintro (⟨k, h⟩ | ⟨k, h⟩)
    · rw [rsaPrivate_iff.2 h]; rfl
    · rw [ecPrivate_iff.2 h]; rfl

theorem public_isSome (s : String) : (pemPublic L s).isSome = true ↔ ∃ k, PublicBlock L s k := by
  simp only [Option.isSome_iff_exists, publicBlock_iff]

theorem cert_isSome (s : String) : (pemCert L s).isSome = true ↔ ∃ c, CertBlock L s c := by
  simp only [Option.isSome_iff_exists, certBlock_iff]

theorem ca_iff (s : String) : isCAText L T s = true ↔ ∃ c, CertBlock L s c ∧ T.isCA c = true := by
  simp only [← certBlock_iff]
  unfold isCAText
  cases pemCert L s <;> simp

/-- **C107**: a validator with a condition for texts accepts exactly the texts which meet it, rejects the other texts and fails for all other values. -/
theorem text_conditions {op : String} {args : List (Node E)} {P : String → Prop} (h : TextCondition L T op (args.map Node.val) P) (v : Val E) :
    (vCond (checkLib L T lambda floats) (vnode op args) v = .ok true ↔ ∃ s, v = .str s ∧ P s) ∧
    (vCond (checkLib L T lambda floats) (vnode op args) v = .ok false ↔ ∃ s, v = .str s ∧ ¬ P s) ∧
    (vCond (checkLib L T lambda floats) (vnode op args) v = .err ↔ ∀ s, v ≠ .str s) := by
  rw [check_rest L T lambda floats (condition_name L T h)]
  generalize args.map Node.val = as at h
  cases h with
  | ip => exact vText_of _ _ (fun _ => Iff.rfl) v
  | cidr => exact vText_of _ _ (fun _ => Iff.rfl) v
  | pattern _ p re ho hc =>
    have : vRest L T op v [.str p] = vText (T.matches_ re) v := by
      simp only [vRest, if_pos ho, vMatch, hc]
      cases v <;> rfl
    rw [this]
    exact vText_of _ _ (fun _ => Iff.rfl) v
  | privateKey => exact vText_of _ _ (private_isSome L) v
  | publicKey => exact vText_of _ _ (public_isSome L) v
  | certificate => exact vText_of _ _ (cert_isSome L) v
  | ca => exact vText_of _ _ (ca_iff L T) v

/-- **C107**: `match` fails for every value without exactly one argument which is a regular expression. -/
theorem match_condition_fails {op : String} (ho : op = "match" ∨ op = "~=") (args : List (Node E)) (h : ∀ p, args.map Node.val = [.str p] → T.compile p = none) (v : Val E) :
    vCond (checkLib L T lambda floats) (vnode op args) v = .err := by
  rw [check_rest L T lambda floats (by rcases ho with rfl | rfl <;> decide)]
  generalize args.map Node.val = as at h
  simp only [vRest, if_pos ho]
  unfold vMatch
  split
  · rename_i p; rw [h p rfl]
  · rfl

/-- **C107**: other names are no validators. -/
theorem unknown_validator (op : String) (args : List (Val E)) (v : Val E) (h : op ∉ checkNames) : vRest L T op v args = .err := by
  simp only [checkNames, List.mem_cons, List.not_mem_nil, or_false, not_or] at h
  obtain ⟨h1, h2, h3, h4, h5, h6, h7, h8⟩ := h
  simp only [vRest, vRegistered, h1, h2, h3, h4, h5, h6, h7, h8, or_self, if_false]

/-- **C107**: a generated key is accepted as a private key, and the public key taken from any text as a public key (but in the format of ssh). -/
theorem keys_accepted (hL : PemLaws L) {args : List (Val E)} {x : Val E} :
    (funcX509GenKey L args = .ok x → vCond (checkLib L T lambda floats) (vnode "privatekey" []) x = .ok true) ∧
    (∀ s fmt, KeyArgs L args s fmt → fmt ≠ "ssh" → funcX509PublicKey L args = .ok x → vCond (checkLib L T lambda floats) (vnode "publickey" []) x = .ok true) := by
  constructor
  · intro h
    refine (text_conditions L T lambda floats (.privateKey _) x).1.2 ?_
    rcases (x509genkey_iff args x).1 h with ⟨n, k, h1, h2, rfl⟩ | ⟨c, k, b, h1, h2, h3, rfl⟩
    · exact ⟨_, rfl, .inl ⟨k, _, hL.block _ _, hL.rsa k⟩⟩
    · exact ⟨_, rfl, .inr ⟨k, _, hL.block _ _, hL.ec k b h3⟩⟩
  · intro s fmt ha hf h
    refine (text_conditions L T lambda floats (.publicKey _) x).1.2 ?_
    obtain ⟨s', fmt', k, t, ha', hk, ht, rfl⟩ := (x509publickey_iff hL args _).1 h
    obtain ⟨rfl, rfl⟩ := keyArgs_unique ha ha'
    have hs := keyText_showable ht
    refine ⟨t, rfl, k, ?_⟩
    cases ht with
    | rsa r => exact ⟨_, _, hL.block _ _, .inr ⟨(hL.pkcs1 r).1, r, (hL.pkcs1 r).2, rfl⟩⟩
    | rsaPKIX h' => exact ⟨_, _, hL.block _ _, .inl ⟨hL.pkix _ _ h', hs.2⟩⟩
    | ecdsa h' => exact ⟨_, _, hL.block _ _, .inl ⟨hL.pkix _ _ h', hs.2⟩⟩
    | ecdsaPKIX h' => exact ⟨_, _, hL.block _ _, .inl ⟨hL.pkix _ _ h', hs.2⟩⟩
    | ssh => exact absurd rfl hf

/-- **C107**: a certificate authority is a certificate. -/
theorem ca_certificate (v : Val E) (h : vCond (checkLib L T lambda floats) (vnode "ca" []) v = .ok true) :
    vCond (checkLib L T lambda floats) (vnode "certificate" []) v = .ok true := by
  obtain ⟨s, rfl, c, h1, -⟩ := (text_conditions L T lambda floats (.ca _) v).1.1 h
  exact (text_conditions L T lambda floats (.certificate _) _).1.2 ⟨s, rfl, c, h1⟩

end

/-- a DSA key is accepted as a public key, but `x509publickey` panics for it -/
theorem dsa_accepted : ∃ s, ∀ (T : CheckLib Unit (AnyPub Bool Bool)) (f : String → Val Unit → List (Val Unit) → VRes),
    vCond (checkLib toyPem T f f) (vnode "publickey" []) (.str s) = .ok true ∧ funcX509PublicKey (E := Unit) toyPem [.str s] = .panic := by
  refine ⟨toyPem.encode "PUBLIC KEY" [54], fun T f => ⟨?_, ?_⟩⟩
  · exact (text_conditions toyPem T f f (.publicKey _) _).1.2 ⟨_, rfl, .dsa, _, _, toy_pem_laws.block _ _, .inl ⟨rfl, fun h => nomatch h⟩⟩
  · have h := toy_pem_laws.block "PUBLIC KEY" [54]
    have h1 : pemPrivate toyPem (toyPem.encode "PUBLIC KEY" [54]) = none := by unfold pemPrivate; rw [h]; decide
    have h2 : pemPublic toyPem (toyPem.encode "PUBLIC KEY" [54]) = some .dsa := by unfold pemPublic; rw [h]; rfl
    simp only [funcX509PublicKey, publicKeyText, keyOfText, h1, h2, publicOfPublic, if_true, publicPem]

/-- conditions with values accepted, rejected and failing -/
theorem toy_checks : let T : CheckLib Char (AnyPub Bool Bool) :=
      { compile := fun s => s.toList.head?, matches_ := fun c s => s.toList.contains c, isIP := fun s => s == "::1", isCIDR := fun _ => false, isCA := fun _ => true }
    let f : String → Val Unit → List (Val Unit) → VRes := fun _ _ _ => .err
    vCond (checkLib toyPem T f f) (vnode "~=" [Node.new (.str "a") ""]) (.str "ba") = .ok true ∧
    vCond (checkLib toyPem T f f) (vnode "~=" [Node.new (.str "") ""]) (.str "ba") = .err ∧
    vCond (checkLib toyPem T f f) (vnode "ip" []) (.str "::2") = .ok false ∧
    vCond (checkLib toyPem T f f) (vnode "ip" []) (.int 2) = .err := by
  intro T f
  refine ⟨?_, ?_, ?_, ?_⟩
  · exact (text_conditions toyPem T f f (P := fun s => T.matches_ 'a' s = true) (.pattern "~=" "a" 'a' (.inr rfl) rfl) _).1.2 ⟨_, rfl, rfl⟩
  · exact match_condition_fails toyPem T f f (.inr rfl) _ (fun p h => by cases h; rfl) _
  · exact (text_conditions toyPem T f f (.ip _) _).2.1.2 ⟨_, rfl, by decide⟩
  · exact (text_conditions toyPem T f f (.ip _) _).2.2.2 (fun s h => by cases h)

end Spiff
