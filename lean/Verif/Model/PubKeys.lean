import Verif.Model.Certs
/-
Model of the functions for keys: dynaml/x509/genkey.go, publickey.go and the keys of utils.go. Go's packages for keys and PEM are parameters.
-/
namespace Spiff

/-- the types of public keys that are distinguished -/
inductive AnyPub (R C : Type) where
  | rsa (k : R)
  | ecdsa (k : C)
  | dsa
  | other

/-- private keys -/
inductive AnyPriv (RP CP : Type) where
  | rsa (k : RP)
  | ecdsa (k : CP)

/-- The functions used of the packages pem, x509, rsa, ecdsa and ssh. Blocks have a type and bytes. -/
structure PemLib (RP CP R C Cert : Type) where
  decode : String → Option (String × List UInt8)
  encode : String → List UInt8 → String
  parsePKCS1Priv : List UInt8 → Option RP
  parseECPriv : List UInt8 → Option CP
  marshalPKCS1Priv : RP → List UInt8
  marshalECPriv : CP → Option (List UInt8)
  rsaPub : RP → R
  ecdsaPub : CP → C
  parsePKIX : List UInt8 → Option (AnyPub R C)
  parsePKCS1Pub : List UInt8 → Option R
  marshalPKCS1Pub : R → List UInt8
  marshalPKIX : AnyPub R C → Option (List UInt8)
  parseCert : List UInt8 → Option Cert
  certKey : Cert → AnyPub R C
  /-- `ssh.NewPublicKey` and `MarshalAuthorizedKey` -/
  ssh : AnyPub R C → Option String
  lower : String → String
  generateRSA : Int → Option RP
  /-- by the name of the curve -/
  generateECDSA : String → Option CP

section
variable {RP CP R C Cert E : Type}

/-- dynaml/x509/utils.go:15-25, 109-115 `ParsePrivateKey`, `privateKey` -/
def pemPrivate (L : PemLib RP CP R C Cert) (s : String) : Option (AnyPriv RP CP) := match L.decode s with
  | none => none
  | some (t, b) =>
    if t = "RSA PRIVATE KEY" then (L.parsePKCS1Priv b).map .rsa
    else if t = "EC PRIVATE KEY" then (L.parseECPriv b).map .ecdsa
    else none

/-- dynaml/x509/utils.go:84-107 `ParsePublicKey`; the type of the block does not matter -/
def pemPublic (L : PemLib RP CP R C Cert) (s : String) : Option (AnyPub R C) := match L.decode s with
  | none => none
  | some (_, b) => match L.parsePKIX b with
    | none => (L.parsePKCS1Pub b).map .rsa
    | some .other => none
    | some k => some k

/-- dynaml/x509/utils.go:117-126 `ParseCertificate` -/
def pemCert (L : PemLib RP CP R C Cert) (s : String) : Option Cert := match L.decode s with
  | none => none
  | some (t, b) => if t ≠ "CERTIFICATE" then none else L.parseCert b

/-- dynaml/x509/utils.go:27-44 `publicKey` for a private key -/
def publicOfPrivate (L : PemLib RP CP R C Cert) : AnyPriv RP CP → AnyPub R C
  | .rsa k => .rsa (L.rsaPub k)
  | .ecdsa k => .ecdsa (L.ecdsaPub k)

/-- dynaml/x509/utils.go:27-44 `publicKey` for a public key; nil for other types (here `other`) -/
def publicOfPublic : AnyPub R C → AnyPub R C
  | .rsa k => .rsa k
  | .ecdsa k => .ecdsa k
  | _ => .other

/-- dynaml/x509/publickey.go:54-70, and `publicKey` in lines 72-77: the public key a text holds -/
def keyOfText (L : PemLib RP CP R C Cert) (s : String) : Option (AnyPub R C) := match pemPrivate L s with
  | some k => some (publicOfPrivate L k)
  | none => match pemPublic L s with
    | some k => some (publicOfPublic k)
    | none => (pemCert L s).map (fun c => publicOfPublic (L.certKey c))

/-- dynaml/x509/utils.go:62-82 `pemBlockForPublicKey`, and publickey.go:86-95 `PublicKeyPEM`: without a block `pem.Encode` panics -/
def publicPem (L : PemLib RP CP R C Cert) (pkix : Bool) : AnyPub R C → Out (Val E)
  | .rsa k =>
    if pkix then match L.marshalPKIX (.rsa k) with
      | some b => .ok (.str (L.encode "PUBLIC KEY" b))
      | none => .panic
    else .ok (.str (L.encode "RSA PUBLIC KEY" (L.marshalPKCS1Pub k)))
  | .ecdsa k => match L.marshalPKIX (.ecdsa k) with
    | some b => .ok (.str (L.encode "ECDSA PUBLIC KEY" b))
    | none => .panic
  | _ => .panic

/-- dynaml/x509/publickey.go:54-83: the key of a text in a format -/
def publicKeyText (L : PemLib RP CP R C Cert) (fmt : String) (s : String) : Out (Val E) := match keyOfText L s with
  | none => .err
  | some k =>
    if fmt = "pem" then publicPem L false k
    else if fmt = "pkix" then publicPem L true k
    else match L.ssh k with
      | some t => .ok (.str t)
      | none => .err

/-- dynaml/x509/publickey.go:24-53 `func_x509publickey` -/
def funcX509PublicKey (L : PemLib RP CP R C Cert) : List (Val E) → Out (Val E)
  | [.str s] => publicKeyText L "pem" s
  | [a, .str f] =>
    if L.lower f = "pem" ∨ L.lower f = "ssh" ∨ L.lower f = "pkix" then match a with
      | .str s => publicKeyText L (L.lower f) s
      | _ => .err
    else .err
  | _ => .err

/-- `strconv.ParseInt(_, 10, 32)` -/
def bitsOf (s : String) : Option Int := match parseInt s with
  | some i => if -2147483648 ≤ i ∧ i < 2147483648 then some i else none
  | none => none

/-- dynaml/x509/genkey.go:53-54, 66-77, utils.go:47-48: a key of RSA as text -/
def genRSA (L : PemLib RP CP R C Cert) (bits : Int) : Out (Val E) := match L.generateRSA bits with
  | some k => .ok (.str (L.encode "RSA PRIVATE KEY" (L.marshalPKCS1Priv k)))
  | none => .err

/-- dynaml/x509/genkey.go:55-77, utils.go:49-55: a key of ECDSA as text. If it cannot be marshalled the program exits (here `panic`). -/
def genECDSA (L : PemLib RP CP R C Cert) (curve : String) : Out (Val E) :=
  if curve = "P224" ∨ curve = "P256" ∨ curve = "P384" ∨ curve = "P521" then match L.generateECDSA curve with
    | some k => match L.marshalECPriv k with
      | some b => .ok (.str (L.encode "EC PRIVATE KEY" b))
      | none => .panic
    | none => .err
  else .err

/-- dynaml/x509/genkey.go:25-78 `func_x509genkey`: with the empty text the number of bits is 0 -/
def funcX509GenKey (L : PemLib RP CP R C Cert) : List (Val E) → Out (Val E)
  | [] => genRSA L 2048
  | [.int n] => genRSA L n
  | [.str s] => match bitsOf s with
    | some n => genRSA L n
    | none => if s = "" then genRSA L 0 else genECDSA L s
  | _ => .err

end

end Spiff
