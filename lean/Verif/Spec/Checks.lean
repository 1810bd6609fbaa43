import Verif.Model.Checks
import Verif.Spec.PubKeys
/-
Specification of the validators for keys, certificates, addresses and patterns (C107).
-/
namespace Spiff.Spec
variable {Re RP CP R C Cert E : Type}

/-- The condition for texts expressed by a validator with arguments. -/
inductive TextCondition (L : PemLib RP CP R C Cert) (T : CheckLib Re Cert) : String → List (Val E) → (String → Prop) → Prop
  | ip (args) : TextCondition L T "ip" args (fun s => T.isIP s = true)
  | cidr (args) : TextCondition L T "cidr" args (fun s => T.isCIDR s = true)
  | pattern (op p re) (ho : op = "match" ∨ op = "~=") (h : T.compile p = some re) : TextCondition L T op [.str p] (fun s => T.matches_ re s = true)
  | privateKey (args) : TextCondition L T "privatekey" args (fun s => (∃ k, RSAPrivate L s k) ∨ ∃ k, ECPrivate L s k)
  | publicKey (args) : TextCondition L T "publickey" args (fun s => ∃ k, PublicBlock L s k)
  | certificate (args) : TextCondition L T "certificate" args (fun s => ∃ c, CertBlock L s c)
  | ca (args) : TextCondition L T "ca" args (fun s => ∃ c, CertBlock L s c ∧ T.isCA c = true)

end Spiff.Spec
