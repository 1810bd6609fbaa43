import Verif.Model.Ops
/-
Model of the encryption of values: dynaml/passwd/method_des1.go, dynaml/passwd/passwd.go and cmd/encrypt.go. Texts are byte
sequences. The block cipher, the authentication code and the (constant) MD5 sum of the empty text are parameters.
-/
namespace Spiff

abbrev Octets := List UInt8

/-- The crypto functions used: `des.NewTripleDESCipher(k)` with `Encrypt` and `Decrypt` of one block, `hmac` with `sha256` and the
constant key `SECRET` (method_des1.go:16, 127-131), the MD5 sum of the empty text. -/
structure CryptLib where
  enc : Octets → Octets → Octets
  dec : Octets → Octets → Octets
  mac : Octets → Octets
  md5Empty : Octets

/-- `c.BlockSize()` of 3DES -/
def blockSize : Nat := 8
/-- `sha256.Size` -/
def macSize : Nat := 32

/-- method_des1.go:50-58 `GetCipher`: `hash.Sum(b)` appends the sum of the text written so far (nothing) to `b`; the first 16 and the
first 8 bytes are used as key -/
def cipherKey (L : CryptLib) (key : Octets) : Octets := (key ++ L.md5Empty).take 16 ++ (key ++ L.md5Empty).take 8

def xorBytes : Octets → Octets → Octets := List.zipWith (· ^^^ ·)

/-- `cipher.NewCBCEncrypter(c, iv).CryptBlocks` for `n` blocks -/
def cbcEnc (E : Octets → Octets) : Nat → Octets → Octets → Octets
  | 0, _, _ => []
  | n + 1, iv, l =>
    let c := E (xorBytes (l.take blockSize) iv)
    c ++ cbcEnc E n c (l.drop blockSize)

/-- `cipher.NewCBCDecrypter(c, iv).CryptBlocks` for `n` blocks -/
def cbcDec (D : Octets → Octets) : Nat → Octets → Octets → Octets
  | 0, _, _ => []
  | n + 1, iv, l => xorBytes (D (l.take blockSize)) iv ++ cbcDec D n (l.take blockSize) (l.drop blockSize)

/-! ### encoding/hex -/

/-- Go's `hextable` -/
def hexByte (n : Nat) : UInt8 := if n < 10 then UInt8.ofNat (48 + n) else UInt8.ofNat (87 + n)
/-- `hex.EncodeToString` -/
def hexEncode : Octets → Octets
  | [] => []
  | b :: r => hexByte (b.toNat / 16) :: hexByte (b.toNat % 16) :: hexEncode r
/-- Go's `fromHexChar` -/
def hexValue (c : UInt8) : Option Nat :=
  if 48 ≤ c.toNat ∧ c.toNat ≤ 57 then some (c.toNat - 48)
  else if 97 ≤ c.toNat ∧ c.toNat ≤ 102 then some (c.toNat - 87)
  else if 65 ≤ c.toNat ∧ c.toNat ≤ 70 then some (c.toNat - 55)
  else none
/-- `ciphertext, _ := hex.DecodeString(text)`: the bytes decoded before an error -/
def hexDecode : Octets → Octets
  | a :: b :: r => match hexValue a, hexValue b with
    | some x, some y => UInt8.ofNat (x * 16 + y) :: hexDecode r
    | _, _ => []
  | _ => []

/-! ### the method 3DES -/

/-- method_des1.go:98 -/
def padLen (m : Nat) : Nat := (blockSize - (m + 1) % blockSize) % blockSize

/-- method_des1.go:92-125 `Encode` (and 24-31) with the random initial vector `iv` -/
def desEncode (L : CryptLib) (iv text key : Octets) : Out Octets :=
  let m := text.length + macSize
  let pad := padLen m
  if (text.length + pad + 1) % blockSize ≠ 0 then .panic
  else .ok (hexEncode (iv ++ cbcEnc (L.enc (cipherKey L key)) ((m + pad + 1) / blockSize) iv
    (text ++ L.mac text ++ List.replicate (pad + 1) (UInt8.ofNat pad))))

/-- method_des1.go:60-90 `DecodeString`; `none`: the empty result -/
def decodeString (L : CryptLib) (text : Octets) (key : Octets) : Out (Option Octets) :=
  let c := hexDecode text
  if c.length < blockSize then .ok none
  else
    let iv := c.take blockSize
    let body := c.drop blockSize
    if body.length % blockSize ≠ 0 then .ok none
    else
      let p := cbcDec (L.dec (cipherKey L key)) (body.length / blockSize) iv body
      match p.getLast? with
      | none => .panic
      | some last =>
        let pad := (last + 1).toNat
        let m : Int := (p.length : Int) - pad
        let l : Int := m - macSize
        if m > p.length ∨ m ≤ 0 ∨ l ≤ 0 ∨ pad < 1 then .ok none
        else if L.mac (p.take l.toNat) = (p.take m.toNat).drop l.toNat then .ok (some (p.take l.toNat)) else .ok none

/-- method_des1.go:33-43 `Decode` -/
def desDecode (L : CryptLib) (text key : Octets) : Out Octets :=
  match decodeString L text key with
  | .ok (some r) => if r = [] then .err else .ok r
  | .ok none => .err
  | .err => .err
  | .undet => .undet
  | .panic => .panic

/-! ### the functions -/

/-- passwd.go:10-14 `Encoding`. The random source is a parameter of the encoding (`iv`). -/
structure Encoding where
  encode : Octets → Octets → Octets → Out Octets
  decode : Octets → Octets → Out Octets

/-- `des1{}` -/
def des1 (L : CryptLib) : Encoding := ⟨desEncode L, desDecode L⟩

/-- `TRIPPLEDES` -/
def TRIPPLEDES : Octets := [51, 68, 69, 83]

/-- passwd.go:16-18 `encodings` (`RegisterEncryption` is not called by spiff) -/
def stdEncodings (L : CryptLib) (name : Octets) : Option Encoding := if name = TRIPPLEDES then some (des1 L) else none

/-- The values and their conversions: strings (`StringValue`, dynaml/validate.go:642-648), `candiedyaml.Marshal`, and
`ParseData(.., "import", ..)`. -/
structure CryptVals (V : Type) where
  str : Octets → V
  text : V → Option Octets
  marshal : V → Option Octets
  parse : Octets → Out V

/-- passwd.go:47-75, 99-127 (and cmd/encrypt.go:62-92): the encoding and the key for the arguments after the first one.
`none`: an error. -/
def chooseKey {V : Type} (encodings : Octets → Option Encoding) (text : V → Option Octets) (dflt : Octets) : List V → Option (Encoding × Octets)
  | [] => (encodings TRIPPLEDES).bind (fun e => if dflt = [] then none else some (e, dflt))
  | [a] => (text a).bind (fun v => match encodings v with
    | some e => if dflt = [] then none else some (e, dflt)
    | none => (encodings TRIPPLEDES).bind (fun e => if v = [] then none else some (e, v)))
  | [a, b] => (text a).bind (fun _ => (text b).bind (fun m => (encodings m).bind (fun e => if dflt = [] then none else some (e, dflt))))
  | _ => none

/-- passwd.go:90-137 `func_encrypt`; `dflt` is the encryption key of the state -/
def funcEncrypt {V : Type} (C : CryptVals V) (encodings : Octets → Option Encoding) (dflt iv : Octets) : List V → Out V
  | [] => .err
  | v :: opts => match C.marshal v with
    | none => .err
    | some data => match chooseKey encodings C.text dflt opts with
      | none => .err
      | some (e, key) => match e.encode iv data key with
        | .ok r => .ok (C.str r)
        | .panic => .panic
        | _ => .err

/-- passwd.go:38-88 `func_decrypt` -/
def funcDecrypt {V : Type} (C : CryptVals V) (encodings : Octets → Option Encoding) (dflt : Octets) : List V → Out V
  | [] => .err
  | v :: opts => match C.text v with
    | none => .err
    | some data => match chooseKey encodings C.text dflt opts with
      | none => .err
      | some (e, key) => match e.decode data key with
        | .ok r => C.parse r
        | .panic => .panic
        | _ => .err

/-- dynaml/md5.go:29-83 `func_hash` for a text and the name of a hash; `sum` are the hash functions of the Go library except `md4`,
for which `md4.New().Sum(b)` is used, which appends the sum of the empty text to `b`. -/
def funcHash (sum : Octets → Option (Octets → Octets)) (md4Empty : Octets) (mode str : Octets) : Option Octets :=
  if mode = [109, 100, 52] then some (hexEncode (str ++ md4Empty))
  else (sum mode).map (fun h => hexEncode (h str))

/-- cmd/encrypt.go:42-107 `encrypt` on the content of the file: the printed text. `isYaml` is the success of `yaml.Parse`. `none`: the
program ends with an error message. -/
def encryptCommand (encodings : Octets → Option Encoding) (isYaml : Octets → Bool) (dflt iv : Octets) (decrypt : Bool) (file : Octets) (args : List Octets) : Out Octets :=
  match chooseKey encodings some dflt args with
  | none => .err
  | some (e, key) =>
    if decrypt then match e.decode file key with
      | .ok r => .ok (r ++ [10])
      | .panic => .panic
      | _ => .err
    else if isYaml file then match e.encode iv file key with
      | .ok r => .ok (r ++ [10])
      | .panic => .panic
      | _ => .err
    else .err

end Spiff
