/-
Specification vocabulary for IP addresses: the number of an address.
-/
namespace Spiff.Spec

/-- the number whose big-endian bytes are `ip` -/
def ipNum (ip : List Nat) : Nat := ip.foldl (fun a b => 256 * a + b) 0

/-- every entry is a byte -/
def Bytes (ip : List Nat) : Prop := ∀ b ∈ ip, b < 256

/-- the IPv4 address with number `n` as four bytes -/
def v4Bytes (n : Nat) : List Nat := [n / 256^3 % 256, n / 256^2 % 256, n / 256 % 256, n % 256]

/-- the IPv4 address with number `n` in the 16 byte form -/
def v4 (n : Nat) : List Nat := [0, 0, 0, 0, 0, 0, 0, 0, 0, 0, 255, 255] ++ v4Bytes n

end Spiff.Spec
