import Verif.Model.StrFns
/-
Model of the WireGuard keys: dynaml/wireguard. Random bytes and the multiplication with the base point of the curve are parameters.
-/
namespace Spiff

/-- crypto/rand `Read` for this number of bytes (`none`: an error), and curve25519 `ScalarBaseMult` -/
structure WgLib where
  random : Nat → Option (List UInt8)
  curve : List UInt8 → List UInt8

/-- dynaml/wireguard/key.go:53-62 `NewKey` -/
def newKey (b : List UInt8) : Option (List UInt8) := if b.length = 32 then some b else none

/-- dynaml/wireguard/key.go:24-31 `GenerateKey` -/
def generateKey (L : WgLib) : Option (List UInt8) := (L.random 32).bind newKey

/-- dynaml/wireguard/key.go:43-45: the changes of the random bytes -/
def clampKey (k : List UInt8) : List UInt8 :=
  let k := k.set 0 (k.getD 0 0 &&& 248)
  let k := k.set 31 (k.getD 31 0 &&& 127)
  k.set 31 (k.getD 31 0 ||| 64)

/-- dynaml/wireguard/key.go:35-48 `GeneratePrivateKey` -/
def generatePrivateKey (L : WgLib) : Option (List UInt8) := (generateKey L).map clampKey

/-- dynaml/wireguard/key.go:66-72 `ParseKey` -/
def parseKey (s : String) : Option (List UInt8) := (b64Decode s.toList).bind (fun d => newKey (d.map UInt8.ofNat))

/-- dynaml/wireguard/key.go:75-86 `PublicKey` -/
def publicKey (L : WgLib) (k : List UInt8) : List UInt8 := L.curve k

/-- dynaml/wireguard/key.go:88-91 `String` -/
def keyText (k : List UInt8) : String := String.ofList (b64Encode (k.map UInt8.toNat))

section
variable {E : Type}

/-- dynaml/wireguard/genkey.go:26-36: the switch over the kind of key -/
def wgKeyOf (L : WgLib) (kind : String) : Out (Val E) :=
  if kind = "private" then match generatePrivateKey L with
    | some k => .ok (.str (keyText k))
    | none => .err
  else if kind = "preshared" then match generateKey L with
    | some k => .ok (.str (keyText k))
    | none => .err
  else .err

/-- dynaml/wireguard/genkey.go:13-41 `func_genkey` -/
def funcWgGenKey (L : WgLib) : List (Val E) → Out (Val E)
  | [] => wgKeyOf L "private"
  | [.str s] => wgKeyOf L s
  | _ => .err

/-- dynaml/wireguard/pubkey.go:13-29 `func_pubkey` -/
def funcWgPublicKey (L : WgLib) : List (Val E) → Out (Val E)
  | [.str s] => match parseKey s with
    | some k => .ok (.str (keyText (publicKey L k)))
    | none => .err
  | _ => .err

end

end Spiff
