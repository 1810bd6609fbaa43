import Verif.Model.Files
import Verif.Model.YamlLayout
/-
Model of the YAML reader's decoding of bytes, legacy/candiedyaml/reader.go: byte order marks, UTF-8 and UTF-16, and the buffer the scanner reads.

Input arrives in pieces of any sizes. Simplified: all input is decoded at once (the code decodes as far as the scanner needs it), there is one
buffer for all of it, and cells of the buffer which are never written are zero (in the code they may contain older contents; this concerns UTF-16
only).
-/
namespace Spiff

/-- yaml_privateh.go:45-63 `width` -/
def octetWidth (b : Nat) : Nat :=
  if b &&& 0x80 = 0 then 1
  else if b &&& 0xE0 = 0xC0 then 2
  else if b &&& 0xF0 = 0xE0 then 3
  else if b &&& 0xF8 = 0xF0 then 4
  else 0

/-- the encodings -/
inductive TextCoding where | utf8 | utf16le | utf16be
deriving DecidableEq, Repr

/-- the decoding of one character: an error, too few bytes, or a character with its number of bytes -/
inductive Decoded where
  | bad
  | incomplete
  | char (value width : Nat)
deriving DecidableEq, Repr

/-- reader.go:242-254: the leading octet -/
def leadBits (o : Nat) : Nat :=
  if o &&& 0x80 = 0 then o &&& 0x7F
  else if o &&& 0xE0 = 0xC0 then o &&& 0x1F
  else if o &&& 0xF0 = 0xE0 then o &&& 0x0F
  else if o &&& 0xF8 = 0xF0 then o &&& 0x07
  else 0

/-- reader.go:256-272: the trailing octets -/
def trailBits (v : Nat) : List Nat → Option Nat
  | [] => some v
  | o :: r => if o &&& 0xC0 = 0x80 then trailBits ((v <<< 6) + (o &&& 0x3F)) r else none

/-- reader.go:274-292: the length of the sequence, and the range of the value -/
def utf8Valid (w v : Nat) : Bool :=
  (w = 1 || (w = 2 && 0x80 ≤ v) || (w = 3 && 0x800 ≤ v) || (w = 4 && 0x10000 ≤ v)) && !((0xD800 ≤ v && v ≤ 0xDFFF) || 0x10FFFF < v)

/-- reader.go:196-292: a character in UTF-8 -/
def decodeUtf8 (eof : Bool) : List Nat → Decoded
  | [] => .incomplete
  | o :: r =>
    if octetWidth o = 0 then .bad
    else if (o :: r).length < octetWidth o then (if eof then .bad else .incomplete)
    else match trailBits (leadBits o) (r.take (octetWidth o - 1)) with
      | none => .bad
      | some v => if utf8Valid (octetWidth o) v then .char v (octetWidth o) else .bad

/-- reader.go:296-301: the positions of the low and the high byte; they are the same for both encodings -/
def utf16Order : TextCoding → Nat × Nat
  | .utf16be => (0, 1)
  | _ => (0, 1)

/-- a pair of bytes, reader.go:341-343 -/
def utf16Unit (order : Nat × Nat) (raw : List Nat) (at_ : Nat) : Nat := raw.getD (at_ + order.1) 0 + (raw.getD (at_ + order.2) 0 <<< 8)

/-- reader.go:293-391: a character in UTF-16 -/
def decodeUtf16 (order : Nat × Nat) (eof : Bool) (raw : List Nat) : Decoded :=
  if raw.length < 2 then (if eof then .bad else .incomplete)
  else if utf16Unit order raw 0 &&& 0xFC00 = 0xDC00 then .bad
  else if utf16Unit order raw 0 &&& 0xFC00 = 0xD800 then
    (if raw.length < 4 then (if eof then .bad else .incomplete)
     else if utf16Unit order raw 2 &&& 0xFC00 = 0xDC00 then
       .char (0x10000 + ((utf16Unit order raw 0 &&& 0x3FF) <<< 10) + (utf16Unit order raw 2 &&& 0x3FF)) 4
     else .bad)
  else .char (utf16Unit order raw 0) 2

/-- reader.go:192-396: the next character -/
def decodeChar (enc : TextCoding) (eof : Bool) (raw : List Nat) : Decoded :=
  match enc with
  | .utf8 => decodeUtf8 eof raw
  | e => decodeUtf16 (utf16Order e) eof raw

/-- reader.go:403-418: the allowed characters -/
def readableCode (v : Nat) : Bool :=
  v = 0x09 || v = 0x0A || v = 0x0D || (0x20 ≤ v && v ≤ 0x7E) || v = 0x85 || (0xA0 ≤ v && v ≤ 0xD7FF) || (0xE000 ≤ v && v ≤ 0xFFFD) ||
  (0x10000 ≤ v && v ≤ 0x10FFFF)

/-- reader.go:184-449: the raw buffer is decoded as far as there are complete characters: characters with their widths, and the remaining bytes.
The number bounds the number of characters. -/
def decodeRun (enc : TextCoding) (eof : Bool) : Nat → List Nat → Option (List (Nat × Nat) × List Nat)
  | 0, raw => some ([], raw)
  | fuel + 1, raw =>
    if raw = [] then some ([], [])
    else match decodeChar enc eof raw with
      | .bad => none
      | .incomplete => some ([], raw)
      | .char v w => if readableCode v then (decodeRun enc eof fuel (raw.drop w)).map (fun r => ((v, w) :: r.1, r.2)) else none

/-- reader.go:131-463: all characters of the input; the second argument is the content of the raw buffer, the list are the pieces still to come
(reader.go:88-121 `yaml_parser_update_raw_buffer`) -/
def readChars (enc : TextCoding) : List (List Nat) → List Nat → Option (List (Nat × Nat))
  | [], raw => (decodeRun enc true raw.length raw).bind (fun r => if r.2 = [] then some r.1 else none)
  | c :: cs, raw => (decodeRun enc false raw.length raw).bind (fun r => (readChars enc cs (r.2 ++ c)).map (fun l => r.1 ++ l))

/-- reader.go:50-56: pieces are read until there are three bytes, or the end is reached -/
def primeRaw : List (List Nat) → List Nat → List Nat × List (List Nat)
  | [], raw => (raw, [])
  | c :: cs, raw => if raw.length < 3 then primeRaw cs (raw ++ c) else (raw, c :: cs)

/-- reader.go:58-82: the encoding, and the bytes behind a byte order mark -/
def detectEncoding (raw : List Nat) : TextCoding × List Nat :=
  match raw with
  | 0xFF :: 0xFE :: r => (.utf16le, r)
  | 0xFE :: 0xFF :: r => (.utf16be, r)
  | 0xEF :: 0xBB :: 0xBF :: r => (.utf8, r)
  | r => (.utf8, r)

/-- the characters of the input with their widths -/
def readCodes (chunks : List (List Nat)) : Option (List (Nat × Nat)) :=
  readChars (detectEncoding (primeRaw chunks []).1).1 (primeRaw chunks []).2 (detectEncoding (primeRaw chunks []).1).2

/-- reader.go:427-445: the bytes of a character in the buffer -/
def bufferBytes (v : Nat) : List Nat :=
  if v ≤ 0x7F then [v]
  else if v ≤ 0x7FF then [0xC0 + (v >>> 6), 0x80 + (v &&& 0x3F)]
  else if v ≤ 0xFFFF then [0xE0 + (v >>> 12), 0x80 + ((v >>> 6) &&& 0x3F), 0x80 + (v &&& 0x3F)]
  else [0xF0 + (v >>> 18), 0x80 + ((v >>> 12) &&& 0x3F), 0x80 + ((v >>> 6) &&& 0x3F), 0x80 + (v &&& 0x3F)]

/-- bytes are written at a position of the buffer -/
def putAt (cells : List Nat) (pos : Nat) (bs : List Nat) : List Nat :=
  (cells ++ List.replicate (pos - cells.length) 0).take pos ++ bs ++ cells.drop (pos + bs.length)

/-- reader.go:425-449: the characters are put into the buffer; its end is moved by the number of bytes in the *input* (line 447) -/
def fillBuffer : List (Nat × Nat) → List Nat → Nat → List Nat × Nat
  | [], cells, pos => (cells, pos)
  | (v, w) :: r, cells, pos => fillBuffer r (putAt cells pos (bufferBytes v)) (pos + w)

/-- reader.go:451-459: at the end a zero is put into the buffer -/
def closeBuffer (b : List Nat × Nat) : List Nat := (putAt b.1 b.2 [0]).take (b.2 + 1)

/-- the characters of the buffer as the scanner sees them: it looks at the leading octets only, and a zero is the end (scanner.go:539-559 `read`,
`skip`). The number bounds the number of characters. -/
def bufferText : Nat → List Nat → YText
  | 0, _ => []
  | _ + 1, [] => []
  | fuel + 1, o :: r =>
    if o = 0 then []
    else Char.ofNat (((r.take (octetWidth o - 1)).foldl (fun v o => (v <<< 6) + (o &&& 0x3F)) (leadBits o))) ::
      bufferText fuel ((o :: r).drop (max 1 (octetWidth o)))

/-- the text the scanner reads for an input -/
def readText (chunks : List Bytes) : Option YText :=
  (readCodes (chunks.map (·.map UInt8.toNat))).map (fun cs =>
    let b := closeBuffer (fillBuffer cs [] 0)
    bufferText b.length b)

end Spiff
