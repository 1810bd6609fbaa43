import Verif.Model.Crypt
/-
Specification vocabulary for C83: encryption.
-/
namespace Spiff.Spec

/-- What is assumed about the crypto functions: encryption and decryption with a key of 24 bytes are inverse on blocks of 8 bytes, the
authentication code has 32 bytes, an MD5 sum has 16 bytes. -/
structure CryptOk (L : CryptLib) : Prop where
  enc_len : ∀ k b, k.length = 24 → b.length = 8 → (L.enc k b).length = 8
  dec_len : ∀ k b, k.length = 24 → b.length = 8 → (L.dec k b).length = 8
  inverse : ∀ k b, k.length = 24 → b.length = 8 → L.dec k (L.enc k b) = b
  mac_len : ∀ t, (L.mac t).length = 32
  md5_len : L.md5Empty.length = 16

/-- An encoding that can be reverted for all non-empty texts and all non-empty keys, for all random initial vectors of 8 bytes. -/
def Reversible (e : Encoding) : Prop :=
  ∀ iv text key c, iv.length = 8 → text ≠ [] → key ≠ [] → e.encode iv text key = .ok c → e.decode c key = .ok text

/-- A sealed text: the text is followed by its authentication code and by `n + 1` bytes (at most 255) of which the last one is `n`. -/
def Sealed (L : CryptLib) (text p : Octets) : Prop :=
  ∃ fill last, p = text ++ L.mac text ++ fill ++ [last] ∧ fill.length = last.toNat ∧ last.toNat < 255

/-- a hexadecimal digit (a byte) and its value -/
def HexDigit (c : UInt8) (v : Nat) : Prop :=
  ("0123456789abcdef".toList[v]?).map Char.toNat = some c.toNat ∨ ("0123456789ABCDEF".toList[v]?).map Char.toNat = some c.toNat

/-- the bytes of a hexadecimal text (lower or upper case digits, two for a byte) -/
inductive HexText : Octets → Octets → Prop
  | nil : HexText [] []
  | cons {a b : UInt8} {x y : Nat} {t r : Octets} (ha : HexDigit a x) (hb : HexDigit b y) (h : HexText t r) :
      HexText (a :: b :: t) (UInt8.ofNat (x * 16 + y) :: r)

/-- Cipher block chaining: `ps` is decrypted from the blocks of `cs`, each one combined with the block before it. -/
inductive Chained (D : Octets → Octets) : Octets → Octets → Octets → Prop
  | nil (prev : Octets) : Chained D prev [] []
  | cons (prev b : Octets) {cs ps : Octets} (hb : b.length = 8) (h : Chained D b cs ps) :
      Chained D prev (b ++ cs) (List.zipWith (· ^^^ ·) (D b) prev ++ ps)

/-- no further byte is given by the text -/
def NoHex (t : Octets) : Prop := ∀ a b r, t = a :: b :: r → (∀ v, ¬ HexDigit a v) ∨ ∀ v, ¬ HexDigit b v

/-- which method and which key are used for the further arguments: a single one is a method if it is the name of a method, and the
key otherwise; of two the second one is the method. -/
inductive Choice {V : Type} (text : V → Option Octets) (dflt : Octets) : List V → Octets → Octets → Prop
  | none : Choice text dflt [] TRIPPLEDES dflt
  | method {a : V} (h : text a = some TRIPPLEDES) : Choice text dflt [a] TRIPPLEDES dflt
  | key {a : V} {k : Octets} (h : text a = some k) (hk : k ≠ TRIPPLEDES) : Choice text dflt [a] TRIPPLEDES k
  | both {a b : V} {k m : Octets} (h : text a = some k) (hm : text b = some m) : Choice text dflt [a, b] m dflt

end Spiff.Spec
