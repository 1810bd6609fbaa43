import Verif.Model.PubKeys
/-
Specification of the functions for keys (C103).
-/
namespace Spiff.Spec
variable {RP CP R C Cert E : Type}

/-- a text is an RSA private key -/
def RSAPrivate (L : PemLib RP CP R C Cert) (s : String) (k : RP) : Prop := ∃ b, L.decode s = some ("RSA PRIVATE KEY", b) ∧ L.parsePKCS1Priv b = some k
/-- a text is an ECDSA private key -/
def ECPrivate (L : PemLib RP CP R C Cert) (s : String) (k : CP) : Prop := ∃ b, L.decode s = some ("EC PRIVATE KEY", b) ∧ L.parseECPriv b = some k
/-- a text is a public key of a known type; the type of the block does not matter -/
def PublicBlock (L : PemLib RP CP R C Cert) (s : String) (k : AnyPub R C) : Prop :=
  ∃ t b, L.decode s = some (t, b) ∧ ((L.parsePKIX b = some k ∧ k ≠ .other) ∨ (L.parsePKIX b = none ∧ ∃ r, L.parsePKCS1Pub b = some r ∧ k = .rsa r))
/-- a text is a certificate -/
def CertBlock (L : PemLib RP CP R C Cert) (s : String) (c : Cert) : Prop := ∃ b, L.decode s = some ("CERTIFICATE", b) ∧ L.parseCert b = some c

/-- a key can be shown -/
def Showable (k : AnyPub R C) : Prop := k ≠ .dsa ∧ k ≠ .other

/-- The public key of a text: that of a private key, the public key itself, or that of a certificate. -/
inductive TextKey (L : PemLib RP CP R C Cert) (s : String) : AnyPub R C → Prop
  | rsa {k} : RSAPrivate L s k → TextKey L s (.rsa (L.rsaPub k))
  | ecdsa {k} : ECPrivate L s k → TextKey L s (.ecdsa (L.ecdsaPub k))
  | pub {k} : (∀ k, ¬ RSAPrivate L s k) → (∀ k, ¬ ECPrivate L s k) → PublicBlock L s k → TextKey L s k
  | cert {c} : (∀ k, ¬ RSAPrivate L s k) → (∀ k, ¬ ECPrivate L s k) → (∀ k, ¬ PublicBlock L s k) → CertBlock L s c → TextKey L s (L.certKey c)

/-- the text of a public key in a format -/
inductive PublicText (L : PemLib RP CP R C Cert) : String → AnyPub R C → String → Prop
  | rsa (k) : PublicText L "pem" (.rsa k) (L.encode "RSA PUBLIC KEY" (L.marshalPKCS1Pub k))
  | rsaPKIX {k b} : L.marshalPKIX (.rsa k) = some b → PublicText L "pkix" (.rsa k) (L.encode "PUBLIC KEY" b)
  | ecdsa {k b} : L.marshalPKIX (.ecdsa k) = some b → PublicText L "pem" (.ecdsa k) (L.encode "ECDSA PUBLIC KEY" b)
  | ecdsaPKIX {k b} : L.marshalPKIX (.ecdsa k) = some b → PublicText L "pkix" (.ecdsa k) (L.encode "ECDSA PUBLIC KEY" b)
  | ssh {k t} : Showable k → L.ssh k = some t → PublicText L "ssh" k t

/-- the arguments: a text and a format, which is PEM by default -/
def KeyArgs (L : PemLib RP CP R C Cert) (args : List (Val E)) (s fmt : String) : Prop :=
  (args = [.str s] ∧ fmt = "pem") ∨ ∃ f, args = [.str s, .str f] ∧ fmt = L.lower f ∧ (fmt = "pem" ∨ fmt = "ssh" ∨ fmt = "pkix")

/-- What the packages guarantee: a block is read as it was written, and keys are read as they were written; an RSA key in its own format is not taken for
one in the general format. -/
structure PemLaws (L : PemLib RP CP R C Cert) : Prop where
  block : ∀ t b, L.decode (L.encode t b) = some (t, b)
  pkix : ∀ k b, L.marshalPKIX k = some b → L.parsePKIX b = some k
  pkcs1 : ∀ k, L.parsePKIX (L.marshalPKCS1Pub k) = none ∧ L.parsePKCS1Pub (L.marshalPKCS1Pub k) = some k
  rsa : ∀ k, L.parsePKCS1Priv (L.marshalPKCS1Priv k) = some k
  ec : ∀ k b, L.marshalECPriv k = some b → L.parseECPriv b = some k
  noOther : L.ssh .other = none

/-- what `x509genkey` generates -/
inductive KeyRequest (E : Type) : List (Val E) → Int ⊕ String → Prop
  | default : KeyRequest E [] (.inl 2048)
  | bits (n) : KeyRequest E [.int n] (.inl n)
  | text {s n} : parseInt s = some n → -2147483648 ≤ n → n ≤ 2147483647 → KeyRequest E [.str s] (.inl n)
  | empty : KeyRequest E [.str ""] (.inl 0)
  | curve (s) : s ∈ ["P224", "P256", "P384", "P521"] → KeyRequest E [.str s] (.inr s)

end Spiff.Spec
