import Verif.Model.Ops
/-
Model of the password hashes: dynaml/md5crypt.go, dynaml/crypt/md5crypt.go and dynaml/crypt/salt.go. Texts are byte sequences. The MD5
sum is a parameter.
-/
namespace Spiff

/-- crypt/md5crypt.go:8 `itoa64` -/
def itoa64 : List UInt8 := "./0123456789ABCDEFGHIJKLMNOPQRSTUVWXYZabcdefghijklmnopqrstuvwxyz".toList.map (fun c => UInt8.ofNat c.toNat)
/-- crypt/md5crypt.go:7 `MD5_MAGIC` -/
def md5Magic : List UInt8 := [36, 97, 112, 114, 49, 36]
/-- crypt/md5crypt.go:10 `md5CryptSwaps` -/
def md5CryptSwaps : List Nat := [12, 6, 0, 13, 7, 1, 14, 8, 2, 15, 9, 3, 5, 10, 4, 11]

/-- crypt/md5crypt.go:25-27: the bytes written for `i` up to the length of the password. (`mixin` has 16 bytes.) -/
def mixinBytes (mixin : List UInt8) (n : Nat) : List UInt8 := (List.range n).map (fun i => mixin.getD (i % 16) 0)

/-- crypt/md5crypt.go:29-35, the loop over the bits of the length of the password; `password[0]` exists if the length is not 0 -/
def lengthBytes (password : List UInt8) (i : Nat) : List UInt8 :=
  if h : i = 0 then [] else (if i % 2 = 0 then password.headD 0 else 0) :: lengthBytes password (i / 2)
termination_by i
decreasing_by omega

/-- crypt/md5crypt.go:39-60, the text whose sum is the result of one round -/
def roundText (password salt final : List UInt8) (i : Nat) : List UInt8 :=
  (if i % 2 = 0 then final else password) ++ (if i % 3 ≠ 0 then salt else []) ++ (if i % 7 ≠ 0 then password else []) ++ (if i % 2 = 0 then password else final)

/-- crypt/md5crypt.go:39-60, the rounds from `i` on -/
def cryptRounds (md5 : List UInt8 → List UInt8) (password salt : List UInt8) : Nat → Nat → List UInt8 → List UInt8
  | 0, _, final => final
  | n + 1, i, final => cryptRounds md5 password salt n (i + 1) (md5 (roundText password salt final i))

/-- crypt/md5crypt.go:14-60: the value of `final` after the rounds -/
def cryptDigest (md5 : List UInt8 → List UInt8) (password salt magic : List UInt8) : List UInt8 :=
  cryptRounds md5 password salt 1000 0
    (md5 (password ++ magic ++ salt ++ mixinBytes (md5 (password ++ salt ++ password)) password.length ++ lengthBytes password password.length))

/-- crypt/md5crypt.go:67-70, the inner loop: the characters written, and `v` and `bits` afterwards -/
def drainBits (v bits : Nat) : List UInt8 × Nat × Nat :=
  if h : 6 < bits then
    let r := drainBits (v >>> 6) (bits - 6)
    (itoa64.getD (v &&& 0x3f) 0 :: r.1, r.2)
  else ([], v, bits)
termination_by bits
decreasing_by omega

/-- crypt/md5crypt.go:62-72: `v` and `bits` have at most 14 bits, the `uint`s do not overflow -/
def cryptChars : List UInt8 → Nat → Nat → List UInt8
  | [], v, _ => [itoa64.getD (v &&& 0x3f) 0]
  | b :: r, v, bits =>
    let d := drainBits (v ||| (b.toNat <<< bits)) (bits + 8)
    d.1 ++ cryptChars r d.2.1 d.2.2

/-- crypt/md5crypt.go:13-75 `MD5Crypt`. (The digest has 16 bytes.) -/
def md5Crypt (md5 : List UInt8 → List UInt8) (password salt magic : List UInt8) : List UInt8 :=
  magic ++ salt ++ [36] ++ cryptChars (md5CryptSwaps.map (fun i => (cryptDigest md5 password salt magic).getD i 0)) 0 0

/-- crypt/salt.go:8-15 `GenerateSALT`; `rand i` is the `i`-th random number -/
def generateSalt (rand : Nat → Nat) (length : Nat) : List UInt8 := (List.range length).map (fun i => itoa64.getD (rand i % 64) 0)

/-- `strings.Split(_, "$")` -/
def splitDollar : List UInt8 → List (List UInt8)
  | [] => [[]]
  | c :: r => if c = 36 then [] :: splitDollar r else match splitDollar r with
    | p :: ps => (c :: p) :: ps
    | [] => [[c]]

/-- the values used: strings and booleans -/
structure PasswdVals (V : Type) where
  str : List UInt8 → V
  bool : Bool → V
  asStr : V → Option (List UInt8)

/-- md5crypt.go:9-24 `func_md5crypt` -/
def funcMd5crypt {V : Type} (C : PasswdVals V) (md5 : List UInt8 → List UInt8) (rand : Nat → Nat) : List V → Out V
  | [a] => match C.asStr a with
    | some passwd => .ok (C.str (md5Crypt md5 passwd (generateSalt rand 8) md5Magic))
    | none => .err
  | _ => .err

/-- md5crypt.go:26-49 `func_md5crypt_check` -/
def funcMd5cryptCheck {V : Type} (C : PasswdVals V) (md5 : List UInt8 → List UInt8) : List V → Out V
  | [a, b] => match C.asStr a, C.asStr b with
    | some passwd, some hash => match splitDollar hash with
      | [_, p1, p2, _] => .ok (C.bool (decide (md5Crypt md5 passwd p2 ([36] ++ p1 ++ [36]) = hash)))
      | _ => .err
    | _, _ => .err
  | _ => .err

end Spiff
