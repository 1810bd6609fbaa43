import Verif.Model.Convert
import Verif.Model.Int64
/-
Model of the functions for certificates: dynaml/x509. Go's packages for keys, certificates, times and addresses are parameters.
-/
namespace Spiff

/-- the template of a certificate (crypto/x509 `Certificate`), as filled by the function. Lists may be nil in Go, here empty. -/
structure CertTemplate (Time IP : Type) where
  serial : Nat
  organization : List String
  commonName : String
  country : List String
  notBefore : Time
  notAfter : Time
  keyUsage : Nat := 0
  extUsage : List Nat := []
  isCA : Bool := false
  ips : List IP := []
  dns : List String := []

/-- The text for the public key of a certificate: the certificate has no key, a text, an error, or a key of another type, for which there is no block to
encode. -/
inductive KeyPem where
  | absent
  | text (s : String)
  | fails
  | noBlock

/-- what is read from a certificate. `none` is a nil list. -/
structure CertView (Time IP : Type) where
  isCA : Bool
  commonName : String
  country : Option (List String)
  organization : Option (List String)
  dns : Option (List String)
  ips : Option (List IP)
  notBefore : Time
  notAfter : Time
  keyUsage : Nat
  extUsage : List Nat
  publicKey : KeyPem

/-- the functions used -/
structure CertLib (Priv Pub Cert Time IP : Type) where
  parsePriv : String → Option Priv
  parsePub : String → Option Pub
  parseCert : String → Option Cert
  publicOf : Priv → Pub
  lower : String → String
  now : Time
  parseTime : String → Option Time
  showTime : Time → String
  /-- `Add` of a duration in nanoseconds -/
  addNanos : Time → Int → Time
  /-- the full hours from now -/
  hoursLeft : Time → Int
  serial : Option Nat
  parseIP : String → Option IP
  showIP : IP → String
  /-- `CreateCertificate` and `pem.Encode`; the parent `none` is the template itself -/
  create : CertTemplate Time IP → Option Cert → Pub → Priv → Option String
  view : Cert → CertView Time IP

section
variable {E : Type}

/-- dynaml/x509/fields.go:9-15 `getField`; nil is no value -/
def certField (m : List (String × Node E)) (name : String) : Option (Val E) := match mget m name with
  | none => none
  | some n => match n.val with
    | .nil => none
    | v => some v

/-- dynaml/x509/fields.go:17-32 `getDefaultedBoolField` -/
def certBool (m : List (String × Node E)) (name : String) (d : Bool) : Option Bool := match certField m name with
  | none => some d
  | some (.bool b) => some b
  | some (.str s) => parseBool s
  | some (.int i) => some (decide (i ≠ 0))
  | some _ => none

/-- dynaml/x509/fields.go:40-47, 71-77, 81-89: the text of a simple value -/
def scalarString : Val E → Option String
  | .str s => some s
  | .bool b => some (showBool b)
  | .int i => some (toString i)
  | _ => none

/-- dynaml/x509/fields.go:34-49 `getDefaultedStringField` -/
def certString (m : List (String × Node E)) (name : String) (d : String) : Option String := match certField m name with
  | none => some d
  | some v => scalarString v

/-- dynaml/x509/fields.go:51-64 `getDefaultedIntField` -/
def certInt (m : List (String × Node E)) (name : String) (d : Int) : Option Int := match certField m name with
  | none => some d
  | some (.str s) => parseInt s
  | some (.int i) => some i
  | some _ => none

/-- dynaml/x509/fields.go:79-91: the loop over the entries -/
def scalarStrings : List (Node E) → Option (List String)
  | [] => some []
  | n :: r => match scalarString n.val with
    | none => none
    | some s => (scalarStrings r).map (s :: ·)

/-- dynaml/x509/fields.go:66-96 `getDefaultedStringListField` with the default nil -/
def certStrings (m : List (String × Node E)) (name : String) : Option (List String) := match certField m name with
  | none => some []
  | some (.list l) => scalarStrings l
  | some v => (scalarString v).map (fun s => [s])

/-- dynaml/x509/fields.go:98-104 `getStringListField`: the test for a missing field is only reached with an error -/
def certStringsRequired (m : List (String × Node E)) (name : String) : Option (List String) := certStrings m name

/-- crypto/x509: the numbers of the bits of key usages; dynaml/x509/utils.go:244-261: their names -/
def keyUsageNames : List (String × Nat) :=
  [("signature", 0), ("commitment", 1), ("keyencipherment", 2), ("dataencipherment", 3), ("keyagreement", 4), ("certsign", 5), ("crlsign", 6), ("encipheronly", 7),
   ("decipheronly", 8)]
/-- crypto/x509: the numbers of extended key usages; dynaml/x509/utils.go:263-290: their names -/
def extUsageNames : List (String × Nat) :=
  [("any", 0), ("serverauth", 1), ("clientauth", 2), ("codesigning", 3), ("emailprotection", 4), ("ipsecendsystem", 5), ("ipsectunnel", 6), ("ipsecuser", 7),
   ("timestamping", 8), ("ocspsigning", 9), ("microsoftservergatedcrypto", 10), ("netscapeservergatedcrypto", 11), ("microsoftcommercialcodesigning", 12),
   ("microsoftkernelcodesigning", 13)]

/-- the first entry of a table -/
def usageNumber : List (String × Nat) → String → Option Nat
  | [], _ => none
  | (k, n) :: r, s => if k = s then some n else usageNumber r s

variable {Priv Pub Cert Time IP : Type}

/-- dynaml/x509/utils.go:242-293 `ParseKeyUsage` and utils.go:137-139, 190-197 `AddTo`: the template with this usage -/
def addUsage (L : CertLib Priv Pub Cert Time IP) (t : CertTemplate Time IP) (u : String) : Option (CertTemplate Time IP) :=
  match usageNumber keyUsageNames (L.lower u) with
  | some b => some { t with keyUsage := t.keyUsage ||| 1 <<< b }
  | none => match usageNumber extUsageNames (L.lower u) with
    | some n => some (if n ∈ t.extUsage then t else { t with extUsage := t.extUsage ++ [n] })
    | none => none

/-- dynaml/x509/certificate.go:192-198: the loop over the usages -/
def addUsages (L : CertLib Priv Pub Cert Time IP) (t : CertTemplate Time IP) : List String → Option (CertTemplate Time IP)
  | [] => some t
  | u :: r => match addUsage L t u with
    | none => none
    | some t => addUsages L t r

/-- dynaml/x509/certificate.go:200-206: the loop over the hosts -/
def addHosts (L : CertLib Priv Pub Cert Time IP) (t : CertTemplate Time IP) : List String → CertTemplate Time IP
  | [] => t
  | h :: r => match L.parseIP h with
    | some ip => addHosts L { t with ips := t.ips ++ [ip] } r
    | none => addHosts L { t with dns := t.dns ++ [h] } r

/-- dynaml/x509/certificate.go:208-211: the flags for a certificate authority -/
def addCA (isCA : Bool) (t : CertTemplate Time IP) : CertTemplate Time IP :=
  if isCA || t.keyUsage &&& (1 <<< 5) ≠ 0 then { t with isCA := true, keyUsage := t.keyUsage ||| 1 <<< 5 } else t

/-- a key given by a text; the empty text is no key -/
def keyOf {K : Type} (parse : String → Option K) (s : String) : Option (Option K) := if s = "" then some none else (parse s).map some

/-- dynaml/x509/certificate.go:111-116: the public key of the certificate -/
def publicFor (L : CertLib Priv Pub Cert Time IP) (priv : Option Priv) : Option Pub → Option Pub
  | some p => some p
  | none => priv.map L.publicOf
/-- dynaml/x509/certificate.go:134-149: the key for the signature -/
def signerFor (L : CertLib Priv Pub Cert Time IP) (ca : Option Cert) (caKey : String) (priv : Option Priv) : Option Priv := match ca with
  | some _ => if caKey = "" then none else L.parsePriv caKey
  | none => priv
/-- dynaml/x509/certificate.go:156-163: the start of the validity -/
def startFor (L : CertLib Priv Pub Cert Time IP) (s : String) : Option Time := if s = "" then some L.now else L.parseTime s

/-- dynaml/x509/certificate.go:40-226 `func_x509cert`, on the fields of the argument. `none`: an error. -/
def certOf (L : CertLib Priv Pub Cert Time IP) (m : List (String × Node E)) : Option String := do
  let isCA ← certBool m "isCA" false
  let orgs ← certStringsRequired m "organization"
  let cn ← certString m "commonName" ""
  let countries ← certStrings m "country"
  let usages ← certStringsRequired m "usage"
  let validity ← certInt m "validity" (24 * 365)
  let hosts ← certStrings m "hosts"
  let privText ← certString m "privateKey" ""
  let priv ← keyOf L.parsePriv privText
  let pubText ← certString m "publicKey" ""
  let given ← keyOf L.parsePub pubText
  let pub ← publicFor L priv given
  let caText ← certString m "caCert" ""
  let ca ← keyOf L.parseCert caText
  let caKey ← certString m "caPrivateKey" ""
  let capriv ← signerFor L ca caKey priv
  let fromText ← certString m "validFrom" ""
  let notBefore ← startFor L fromText
  let serial ← L.serial
  let t : CertTemplate Time IP :=
    { serial, organization := orgs, commonName := cn, country := countries, notBefore, notAfter := L.addNanos notBefore (wrap64 (validity * 3600000000000)) }
  let t ← addUsages L t usages
  L.create (addCA isCA (addHosts L t hosts)) ca pub capriv

/-- dynaml/x509/certificate.go:40-50 `func_x509cert`, the argument -/
def funcX509Cert (L : CertLib Priv Pub Cert Time IP) : List (Val E) → Out (Val E)
  | [.map m] => match certOf L m with
    | some s => .ok (.str s)
    | none => .err
  | _ => .err

/-- dynaml/x509/utils.go:141-164: the names of the key usages by their bits -/
def keyUsageTexts : List String :=
  ["Signature", "ContentCommitment", "KeyEncipherment", "DataEncipherment", "KeyAgreement", "CertSign", "CRLSign", "EncipherOnly", "DecipherOnly"]
/-- dynaml/x509/utils.go:199-232: the names of the extended key usages -/
def extUsageTexts : List String :=
  ["Any", "ServerAuth", "ClientAuth", "CodeSigning", "EmailProtection", "IPSECEndSystem", "IPSECTunnel", "IPSECUser", "TimeStamping", "OCSPSigning",
   "MicrosoftServerGatedCrypto", "NetscapeServerGatedCrypto", "MicrosoftCommercialCodeSigning", "MicrosoftKernelCodeSigning"]

/-- dynaml/x509/utils.go:166-186 `KeyUsages` -/
def keyUsagesOf (u : Nat) : List String := (List.range 9).filterMap (fun b => if u &&& (1 <<< b) ≠ 0 then keyUsageTexts[b]? else none)
/-- dynaml/x509/utils.go:234-240 `ExtKeyUsages` -/
def extUsagesOf (u : List Nat) : List String := u.map (fun n => extUsageTexts.getD n "UnknownExtKeyUsage")

/-- dynaml/x509/parsecert.go:75-82 `NodeStringList` -/
def stringNodes (src : String) (l : List String) : List (Node E) := l.map (fun s => Node.new (.str s) src)

/-- an optional field of the result -/
def putField (src : String) (m : List (String × Node E)) (k : String) : Option (Val E) → List (String × Node E)
  | none => m
  | some v => mset m k (Node.new v src)

/-- dynaml/x509/parsecert.go:33-64: the fields of the result but the public key -/
def certFields (L : CertLib Priv Pub Cert Time IP) (src : String) (v : CertView Time IP) : List (String × Node E) :=
  let m : List (String × Node E) := mset [] "isCA" (Node.new (.bool v.isCA) src)
  let m := putField src m "commonName" (if v.commonName = "" then none else some (.str v.commonName))
  let m := putField src m "country" (v.country.map (fun l => .list (stringNodes src l)))
  let m := putField src m "organization" (v.organization.map (fun l => .list (stringNodes src l)))
  let m := putField src m "dnsNames" (v.dns.map (fun l => .list (stringNodes src l)))
  let m := putField src m "ipAddresses" (v.ips.map (fun l => .list (stringNodes src (l.map L.showIP))))
  let m := putField src m "hosts" (if (v.dns.getD []).length + (v.dns.getD []).length > 0 then
    some (.list (stringNodes src ((v.ips.getD []).map L.showIP) ++ stringNodes src (v.dns.getD []))) else none)
  let m := mset m "validFrom" (Node.new (.str (L.showTime v.notBefore)) src)
  let m := mset m "validUntil" (Node.new (.str (L.showTime v.notAfter)) src)
  let m := mset m "validity" (Node.new (.int (L.hoursLeft v.notAfter)) src)
  mset m "usage" (Node.new (.list (stringNodes src (keyUsagesOf v.keyUsage ++ extUsagesOf v.extUsage))) src)

/-- dynaml/x509/parsecert.go:16-73 `func_x509parsecert`. Without a block to encode, `pem.Encode` fails (panic). -/
def funcX509ParseCert (L : CertLib Priv Pub Cert Time IP) (src : String) : List (Val E) → Out (Val E)
  | [.str s] => match L.parseCert s with
    | none => .err
    | some c => match (L.view c).publicKey with
      | .absent => .ok (.map (certFields L src (L.view c)))
      | .text k => .ok (.map (mset (certFields L src (L.view c)) "publicKey" (Node.new (.str k) src)))
      | .fails => .err
      | .noBlock => .panic
  | _ => .err

end

end Spiff
