import Verif.Model.Certs
import Mathlib.Data.List.Dedup
/-
Specification of the functions for certificates (C102).
-/
namespace Spiff.Spec
variable {E Priv Pub Cert Time IP : Type}

/-- a field has a value; nil is no value -/
def FieldIs (m : List (String × Node E)) (name : String) (v : Val E) : Prop := ∃ n, mget m name = some n ∧ n.val = v ∧ v ≠ .nil

/-- the text of a simple value -/
inductive Shows : Val E → String → Prop
  | str (s : String) : Shows (.str s) s
  | bool (b : Bool) : Shows (.bool b) (if b then "true" else "false")
  | int (i : Int) : Shows (.int i) (toString i)

/-- the text of a field, or the default -/
def TextField (m : List (String × Node E)) (name d s : String) : Prop := ((∀ v, ¬ FieldIs m name v) ∧ s = d) ∨ ∃ v, FieldIs m name v ∧ Shows v s

/-- the texts of a field: of the entries of a list, or of a single value -/
def TextsField (m : List (String × Node E)) (name : String) (l : List String) : Prop :=
  ((∀ v, ¬ FieldIs m name v) ∧ l = []) ∨ (∃ v s, FieldIs m name v ∧ Shows v s ∧ l = [s]) ∨
    ∃ ns, FieldIs m name (.list ns) ∧ List.Forall₂ (fun n s => Shows n.val s) ns l

/-- the number of a field, or the default -/
def NumberField (m : List (String × Node E)) (name : String) (d i : Int) : Prop :=
  ((∀ v, ¬ FieldIs m name v) ∧ i = d) ∨ FieldIs m name (.int i) ∨ ∃ s, FieldIs m name (.str s) ∧ parseInt s = some i

/-- the flag of a field, by default false -/
def FlagField (m : List (String × Node E)) (name : String) (b : Bool) : Prop :=
  ((∀ v, ¬ FieldIs m name v) ∧ b = false) ∨ FieldIs m name (.bool b) ∨ (∃ i, FieldIs m name (.int i) ∧ (b = true ↔ i ≠ 0)) ∨
    ∃ s, FieldIs m name (.str s) ∧ parseBool s = some b

/-- the key usages, with their bits -/
def keyUsages : List (String × Nat) := ["signature", "commitment", "keyencipherment", "dataencipherment", "keyagreement", "certsign", "crlsign", "encipheronly", "decipheronly"].zipIdx
/-- the extended key usages, with their numbers -/
def extUsages : List (String × Nat) := ["any", "serverauth", "clientauth", "codesigning", "emailprotection", "ipsecendsystem", "ipsectunnel", "ipsecuser", "timestamping",
  "ocspsigning", "microsoftservergatedcrypto", "netscapeservergatedcrypto", "microsoftcommercialcodesigning", "microsoftkernelcodesigning"].zipIdx

/-- What a certificate is made of: its template, the certificate of the authority (or none, for a self-signed one), the public key and the private key for the
signature. -/
structure CertPlan (L : CertLib Priv Pub Cert Time IP) (m : List (String × Node E)) (t : CertTemplate Time IP) (ca : Option Cert) (pub : Pub) (signer : Priv) : Prop where
  organization : TextsField m "organization" t.organization
  commonName : TextField m "commonName" "" t.commonName
  country : TextsField m "country" t.country
  /-- addresses and names are taken apart -/
  hosts : ∃ hs, TextsField m "hosts" hs ∧ t.ips = hs.filterMap L.parseIP ∧ t.dns = hs.filter (fun h => (L.parseIP h).isNone)
  /-- valid for 365 days by default -/
  period : ∃ from' hours, TextField m "validFrom" "" from' ∧ (if from' = "" then t.notBefore = L.now else L.parseTime from' = some t.notBefore) ∧
    NumberField m "validity" 8760 hours ∧ t.notAfter = L.addNanos t.notBefore (wrap64 (hours * 3600000000000))
  serial : L.serial = some t.serial
  /-- An authority is marked by the field `isCA` or by the usage `certsign`; it has both marks. -/
  usage : ∃ us flag, TextsField m "usage" us ∧ FlagField m "isCA" flag ∧
    (∀ u ∈ us, ∃ n, (L.lower u, n) ∈ keyUsages ∨ (L.lower u, n) ∈ extUsages) ∧
    (t.isCA = true ↔ flag = true ∨ ∃ u ∈ us, L.lower u = "certsign") ∧
    (∀ b, t.keyUsage.testBit b = true ↔ (∃ u ∈ us, (L.lower u, b) ∈ keyUsages) ∨ (b = 5 ∧ flag = true)) ∧
    t.extUsage.Nodup ∧ (∀ n, n ∈ t.extUsage ↔ ∃ u ∈ us, (L.lower u, n) ∈ extUsages) ∧
    -- in the order of their first occurrences
    t.extUsage = (us.filterMap (fun u => extUsages.lookup (L.lower u))).reverse.dedup.reverse
  /-- The public key is the given one or that of the private key; the signature is made by the key of the authority or by the own key. -/
  keys : ∃ privText pubText caText caKey, TextField m "privateKey" "" privText ∧ TextField m "publicKey" "" pubText ∧ TextField m "caCert" "" caText ∧
    TextField m "caPrivateKey" "" caKey ∧
    (privText = "" ∨ ∃ p, L.parsePriv privText = some p) ∧
    (if pubText = "" then privText ≠ "" ∧ ∃ p, L.parsePriv privText = some p ∧ pub = L.publicOf p else L.parsePub pubText = some pub) ∧
    (if caText = "" then ca = none ∧ privText ≠ "" ∧ L.parsePriv privText = some signer
      else (∃ c, L.parseCert caText = some c ∧ ca = some c) ∧ caKey ≠ "" ∧ L.parsePriv caKey = some signer)

/-- The names shown for key usages, with their bits, and for extended key usages, with their numbers. -/
def shownKeyUsages : List (String × Nat) := ["Signature", "ContentCommitment", "KeyEncipherment", "DataEncipherment", "KeyAgreement", "CertSign", "CRLSign", "EncipherOnly", "DecipherOnly"].zipIdx
def shownExtUsages : List (String × Nat) := ["Any", "ServerAuth", "ClientAuth", "CodeSigning", "EmailProtection", "IPSECEndSystem", "IPSECTunnel", "IPSECUser", "TimeStamping",
  "OCSPSigning", "MicrosoftServerGatedCrypto", "NetscapeServerGatedCrypto", "MicrosoftCommercialCodeSigning", "MicrosoftKernelCodeSigning"].zipIdx

/-- the value of a list of texts -/
def textsVal (src : String) (l : List String) : Val E := .list (l.map (fun s => Node.new (.str s) src))

/-- What is shown for a certificate: a name and its value. -/
inductive CertShows (L : CertLib Priv Pub Cert Time IP) (src : String) (v : CertView Time IP) : String → Val E → Prop
  | isCA : CertShows L src v "isCA" (.bool v.isCA)
  | commonName : v.commonName ≠ "" → CertShows L src v "commonName" (.str v.commonName)
  | country {l} : v.country = some l → CertShows L src v "country" (textsVal src l)
  | organization {l} : v.organization = some l → CertShows L src v "organization" (textsVal src l)
  | dnsNames {l} : v.dns = some l → CertShows L src v "dnsNames" (textsVal src l)
  | ipAddresses {l} : v.ips = some l → CertShows L src v "ipAddresses" (textsVal src (l.map L.showIP))
  /-- the addresses and the names, if there is a name -/
  | hosts {l} : v.dns = some l → l ≠ [] → CertShows L src v "hosts" (textsVal src ((v.ips.getD []).map L.showIP ++ l))
  | validFrom : CertShows L src v "validFrom" (.str (L.showTime v.notBefore))
  | validUntil : CertShows L src v "validUntil" (.str (L.showTime v.notAfter))
  | validity : CertShows L src v "validity" (.int (L.hoursLeft v.notAfter))
  | usage : CertShows L src v "usage" (textsVal src ((shownKeyUsages.filter (fun p => v.keyUsage.testBit p.2)).map Prod.fst ++
      v.extUsage.map (fun n => ((shownExtUsages.find? (fun p => p.2 == n)).map Prod.fst).getD "UnknownExtKeyUsage")))
  | publicKey {k} : v.publicKey = .text k → CertShows L src v "publicKey" (.str k)

end Spiff.Spec
