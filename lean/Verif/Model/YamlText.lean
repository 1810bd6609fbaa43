import Verif.Model.YamlOut
/-
Model of the texts of scalars: the functions of legacy/candiedyaml/emitter.go writing a scalar in its selected style, and the functions
of legacy/candiedyaml/scanner.go reading a scalar.

Texts are sequences of characters; the end of the input is the end of the sequence (the code appends NUL bytes, a NUL character in the input
is taken for the end, too). Not modelled: the output and input buffers, bytes which are no valid UTF-8, folded block scalars (never written),
flow contexts (`flow_level > 0`, nothing but empty collections is written in flow style).
-/
namespace Spiff

/-! ### writing -/

/-- emitter.go: the fields `column`, `whitespace` and `indention` of the emitter -/
structure EPos where
  col : Nat
  ws : Bool
  ind : Bool
deriving DecidableEq, Repr

/-- emitter.go:315-330: the preferred width of lines -/
def bestWidth : Nat := 80

/-- a text written in front of others -/
def pre (t : YText) (r : YText × EPos) : YText × EPos := (t ++ r.1, r.2)

/-- emitter.go:1483-1511 `yaml_emitter_write_indent` -/
def writeIndent (n : Nat) (e : EPos) : YText × EPos :=
  if !e.ind || e.col > n || (e.col = n && !e.ws) then ('\n' :: List.replicate n ' ', ⟨n, true, true⟩)
  else (List.replicate (n - e.col) ' ', ⟨max e.col n, true, true⟩)

/-- emitter.go:1513-1538 `yaml_emitter_write_indicator` -/
def writeIndicator (t : YText) (need isWs isInd : Bool) (e : EPos) : YText × EPos :=
  let p : YText := if need && !e.ws then [' '] else []
  (p ++ t, ⟨e.col + p.length + t.length, isWs, e.ind && isInd⟩)

/-- `is_space` at the next position -/
def nextSpace : YText → Bool
  | ' ' :: _ => true
  | _ => false

/-- emitter.go:1638-1674 (plain, `q = false`) and emitter.go:1694-1740 (single quoted, `q = true`): the loop. `first`: no character is
written yet. For plain scalars the code looks at the character behind the last one if that is a space; plain scalars do not end with spaces. -/
def singleBody (q : Bool) (n : Nat) (allow : Bool) : (first spaces breaks : Bool) → EPos → YText → YText × EPos
  | _, _, _, e, [] => ([], e)
  | first, spaces, breaks, e, c :: r =>
    if c = ' ' then
      if allow && !spaces && e.col > bestWidth && (!q || (!first && !r.isEmpty)) && !nextSpace r then
        pre (writeIndent n e).1 (singleBody q n allow false true breaks (writeIndent n e).2 r)
      else pre [' '] (singleBody q n allow false true breaks { e with col := e.col + 1 } r)
    else if isBreakC c then
      pre ((if !breaks && c = '\n' then ['\n'] else []) ++ [c]) (singleBody q n allow false spaces true { e with col := 0, ind := true } r)
    else
      let i := if breaks then writeIndent n e else ([], e)
      let t := (if q && c = '\'' then ['\''] else []) ++ [c]
      pre (i.1 ++ t) (singleBody q n allow false false false { i.2 with col := i.2.col + t.length, ind := false } r)

/-- emitter.go:1625-1684 `yaml_emitter_write_plain_scalar` -/
def writePlain (n : Nat) (allow : Bool) (e : EPos) (s : YText) : YText × EPos :=
  let p : YText := if !e.ws then [' '] else []
  let b := singleBody false n allow true false false { e with col := e.col + p.length } s
  (p ++ b.1, { b.2 with ws := false, ind := false })

/-- emitter.go:1686-1750 `yaml_emitter_write_single_quoted_scalar` -/
def writeSingle (n : Nat) (allow : Bool) (e : EPos) (s : YText) : YText × EPos :=
  let o := writeIndicator ['\''] true false false e
  let b := singleBody true n allow true false false o.2 s
  let c := writeIndicator ['\''] false false false b.2
  (o.1 ++ b.1 ++ c.1, { c.2 with ws := false, ind := false })

/-- emitter.go:1764-1767: characters written as escape sequences (`unicode` is never set) -/
def escapedC (c : Char) : Bool := !isPlainC c || isBreakC c || c = '"' || c = '\\'

/-- emitter.go:1792-1868: escape sequences of one letter -/
def escapeLetter (v : Nat) : Option Char :=
  match v with
  | 0x00 => some '0'
  | 0x07 => some 'a'
  | 0x08 => some 'b'
  | 0x09 => some 't'
  | 0x0A => some 'n'
  | 0x0B => some 'v'
  | 0x0C => some 'f'
  | 0x0D => some 'r'
  | 0x1B => some 'e'
  | 0x22 => some '"'
  | 0x5C => some '\\'
  | 0x85 => some 'N'
  | 0xA0 => some '_'
  | 0x2028 => some 'L'
  | 0x2029 => some 'P'
  | _ => none

/-- emitter.go:1886-1890: a hexadecimal digit -/
def hexUpper (d : Nat) : Char := if d > 9 then Char.ofNat (d + 'A'.toNat - 10) else Char.ofNat (d + '0'.toNat)

/-- emitter.go:1885-1895: `w` hexadecimal digits, the most significant first -/
def hexText : Nat → Nat → YText
  | 0, _ => []
  | w + 1, v => hexUpper (v / 16 ^ w % 16) :: hexText w v

/-- emitter.go:1786-1896: the escape sequence of a character -/
def escapeText (c : Char) : YText :=
  match escapeLetter c.toNat with
  | some l => ['\\', l]
  | none =>
    if c.toNat ≤ 0xFF then '\\' :: 'x' :: hexText 2 c.toNat
    else if c.toNat ≤ 0xFFFF then '\\' :: 'u' :: hexText 4 c.toNat
    else '\\' :: 'U' :: hexText 8 c.toNat

/-- emitter.go:1761-1914: the loop -/
def doubleBody (n : Nat) (allow : Bool) : (first spaces : Bool) → EPos → YText → YText × EPos
  | _, _, e, [] => ([], e)
  | first, spaces, e, c :: r =>
    if escapedC c then
      pre (escapeText c) (doubleBody n allow false false { e with col := e.col + (escapeText c).length } r)
    else if c = ' ' then
      if allow && !spaces && e.col > bestWidth && !first && !r.isEmpty then
        let i := writeIndent n e
        let b : YText := if nextSpace r then ['\\'] else []
        pre (i.1 ++ b) (doubleBody n allow false true { i.2 with col := i.2.col + b.length } r)
      else pre [' '] (doubleBody n allow false true { e with col := e.col + 1 } r)
    else pre [c] (doubleBody n allow false false { e with col := e.col + 1 } r)

/-- emitter.go:1752-1923 `yaml_emitter_write_double_quoted_scalar` -/
def writeDouble (n : Nat) (allow : Bool) (e : EPos) (s : YText) : YText × EPos :=
  let o := writeIndicator ['"'] true false false e
  let b := doubleBody n allow true false o.2 s
  let c := writeIndicator ['"'] false false false b.2
  (o.1 ++ b.1 ++ c.1, { c.2 with ws := false, ind := false })

/-- emitter.go:1925-1969 `yaml_emitter_write_block_scalar_hints`: the indentation hint is `best_indent`, which is 2; the loops over bytes inside
of the last character do nothing for characters of one byte, and the index is not decremented to the character in front of the last one. -/
def blockHints (s : YText) : YText :=
  (match s with
    | c :: _ => if c = ' ' || isBreakC c then ['2'] else []
    | [] => []) ++
  (match s.getLast? with
    | none => ['-']
    | some c => if isBreakC c then ['+'] else ['-'])

/-- emitter.go:1988-2009: the loop -/
def literalBody (n : Nat) : (breaks : Bool) → EPos → YText → YText × EPos
  | _, e, [] => ([], e)
  | breaks, e, c :: r =>
    if isBreakC c then pre [c] (literalBody n true { e with col := 0, ind := true } r)
    else
      let i := if breaks then writeIndent n e else ([], e)
      pre (i.1 ++ [c]) (literalBody n false { i.2 with col := i.2.col + 1, ind := false } r)

/-- emitter.go:1971-2012 `yaml_emitter_write_literal_scalar`. For an empty value the code fails with an index error; an empty value is never
written as block. -/
def writeLiteral (n : Nat) (e : EPos) (s : YText) : YText × EPos :=
  let o := writeIndicator ['|'] true false false e
  let b := literalBody n true ⟨0, true, true⟩ s
  (o.1 ++ blockHints s ++ ['\n'] ++ b.1, b.2)

/-- emitter.go:1096-1127 `yaml_emitter_process_scalar` -/
def writeText (simpleKey : Bool) (n : Nat) (e : EPos) (st : YStyle) (s : YText) : YText × EPos :=
  match st with
  | .plain => writePlain n (!simpleKey) e s
  | .single => writeSingle n (!simpleKey) e s
  | .double => writeDouble n (!simpleKey) e s
  | .literal => writeLiteral n e s

/-! ### reading -/

/-- scanner.go:557-594 `read_line`: the break which is taken over -/
def normBreak (c : Char) : Char := if c = '\u2028' || c = '\u2029' then c else '\n'

/-- scanner.go:2858-2866, 3158-3166, 757-770: a document indicator; only looked for in column 0 -/
def docMarker : YText → Bool
  | '-' :: '-' :: '-' :: r => followedBy r
  | '.' :: '.' :: '.' :: r => followedBy r
  | _ => false

/-- scanner.go:2850-2853, 3143-3147: blanks and breaks met so far: `leading_blanks`, `leading_break`, `trailing_breaks`, `whitespaces` -/
structure Blanks where
  lead : Bool := false
  first : YText := []
  more : YText := []
  ws : YText := []
deriving DecidableEq, Repr

/-- scanner.go:3039-3060, 3254-3270: a break is met -/
def Blanks.brk (b : Blanks) (c : Char) : Blanks :=
  if b.lead then { b with more := b.more ++ [normBreak c] }
  else { b with lead := true, first := b.first ++ [normBreak c], ws := [] }

/-- scanner.go:3020-3065 (quoted) and scanner.go:3233-3296 (plain): blanks and breaks are consumed; `none`: a tab in the indentation of a plain
scalar (`indent` is 0 for quoted scalars). -/
def eatBlanks (indent : Nat) : Blanks → Nat → YText → Option (Blanks × Nat × YText)
  | b, col, [] => some (b, col, [])
  | b, _, '\r' :: '\n' :: r => eatBlanks indent (b.brk '\n') 0 r
  | b, col, c :: r =>
    if isBlankC c then
      if b.lead && col < indent && c = '\t' then none
      else eatBlanks indent (if b.lead then b else { b with ws := b.ws ++ [c] }) (col + 1) r
    else if isBreakC c then eatBlanks indent (b.brk c) 0 r
    else some (b, col, c :: r)

/-- scanner.go:3067-3090, 3197-3220: line breaks are folded -/
def Blanks.join (b : Blanks) : YText :=
  if b.lead then
    match b.first with
    | '\n' :: _ => if b.more.isEmpty then [' '] else b.more
    | _ => b.first ++ b.more
  else b.ws

/-- yaml_privateh.go:118-136 `is_hex`, `as_hex` -/
def asHex (c : Char) : Option Nat :=
  if '0' ≤ c ∧ c ≤ '9' then some (c.toNat - '0'.toNat)
  else if 'A' ≤ c ∧ c ≤ 'F' then some (c.toNat - 'A'.toNat + 10)
  else if 'a' ≤ c ∧ c ≤ 'f' then some (c.toNat - 'a'.toNat + 10)
  else none

/-- scanner.go:2975-2983: `k` hexadecimal digits -/
def readHex : Nat → Nat → YText → Option (Nat × YText)
  | 0, v, t => some (v, t)
  | _ + 1, _, [] => none
  | k + 1, v, c :: r => match asHex c with
    | some d => readHex k (v * 16 + d) r
    | none => none

/-- scanner.go:2916-2960: escape sequences of one letter -/
def letterEscape (c : Char) : Option Char :=
  match c with
  | '0' => some '\u0000'
  | 'a' => some '\u0007'
  | 'b' => some '\u0008'
  | 't' => some '\t'
  | '\t' => some '\t'
  | 'n' => some '\n'
  | 'v' => some '\u000b'
  | 'f' => some '\u000c'
  | 'r' => some '\r'
  | 'e' => some '\u001b'
  | ' ' => some ' '
  | '"' => some '"'
  | '/' => some '/'
  | '\\' => some '\\'
  | 'N' => some '\u0085'
  | '_' => some '\u00a0'
  | 'L' => some '\u2028'
  | 'P' => some '\u2029'
  | _ => none

/-- scanner.go:2950-2955: the number of digits -/
def codeLength (c : Char) : Option Nat :=
  match c with
  | 'x' => some 2
  | 'u' => some 4
  | 'U' => some 8
  | _ => none

/-- scanner.go:2985-3010: the character of a code -/
def codeChar (v : Nat) : Option Char := if h : v.isValidChar then some ⟨UInt32.ofNatLT v (by
  rcases h with h | ⟨_, h⟩
  · exact Nat.lt_trans h (by decide)
  · exact Nat.lt_trans h (by decide)), by simpa [UInt32.isValidChar] using h⟩ else none

/-- what a step of a scanner does: it fails, the scalar is complete, or it goes on with value, column and text -/
inductive FStep where
  | fail
  | done (value : YText) (col : Nat) (rest : YText)
  | more (value : YText) (col : Nat) (rest : YText)
deriving DecidableEq, Repr

/-- scanner.go:3014-3095: blanks are consumed and joined to the value -/
def joinBlanks (b : Blanks) (s : YText) (col : Nat) (t : YText) : FStep :=
  match eatBlanks 0 b col t with
  | some (b, col', r') => .more (s ++ b.join) col' r'
  | none => .fail

/-- scanner.go:526-530: the LF of a CR LF is skipped, too -/
def skipLF (d : Char) (r : YText) : YText := if d = '\r' && r.head? = some '\n' then r.drop 1 else r

/-- scanner.go:2903-3010: behind a backslash -/
def escapeStep (s : YText) (col : Nat) : YText → FStep
  | [] => .fail
  | d :: r =>
    if isBreakC d then joinBlanks { lead := true } s 0 (skipLF d r)
    else match letterEscape d with
      | some e => .more (s ++ [e]) (col + 2) r
      | none => match codeLength d with
        | none => .fail
        | some k => match readHex k 0 r with
          | none => .fail
          | some (v, r') => match codeChar v with
            | none => .fail
            | some e => .more (s ++ [e]) (col + 2 + k) r'

/-- scanner.go:2894-2901: at a single quote -/
def quoteStep (s : YText) (col : Nat) : YText → FStep
  | '\'' :: r => .more (s ++ ['\'']) (col + 2) r
  | r => .done s (col + 1) r

/-- scanner.go:2855-3095: one step of the loops. The test for document indicators is made at the beginning of each turn of the outer loop; a
turn begins in column 0 or not, inside of a turn the column is not 0. -/
def quotedStep (single : Bool) (s : YText) (col : Nat) (c : Char) (r : YText) : FStep :=
  if col = 0 && docMarker (c :: r) then .fail
  else if isZeroC c then .fail
  else if isBlankC c || isBreakC c then joinBlanks {} s col (c :: r)
  else if single && c = '\'' then quoteStep s col r
  else if !single && c = '"' then .done s (col + 1) r
  else if !single && c = '\\' then escapeStep s col r
  else .more (s ++ [c]) (col + 1) r

/-- scanner.go:2844-3136 `yaml_parser_scan_flow_scalar` behind the left quote: value, column and text behind the right quote. The fuel is the
number of steps; every step consumes a character. -/
def flowText (single : Bool) : Nat → YText → Nat → YText → Option (YText × Nat × YText)
  | 0, _, _, _ => none
  | _ + 1, _, _, [] => none
  | fuel + 1, s, col, c :: r => match quotedStep single s col c r with
    | .fail => none
    | .done v col' r' => some (v, col', r')
    | .more v col' r' => flowText single fuel v col' r'

/-- scanner.go:3142-3318 `yaml_parser_scan_plain_scalar` in block context: value, column and text behind the scalar and the blanks following it,
and whether the scalar ended with a line break. `indent` is `parser.indent + 1`, `head`: at the beginning of a turn of the outer loop. -/
def plainText (indent : Nat) : Nat → (head : Bool) → YText → Blanks → Nat → YText → Option (YText × Nat × YText × Bool)
  | 0, _, _, _, _, _ => none
  | _ + 1, _, s, b, col, [] => some (s, col, [], b.lead)
  | fuel + 1, head, s, b, col, c :: r =>
    if head && ((col = 0 && docMarker (c :: r)) || c = '#') then some (s, col, c :: r, b.lead)
    else if isZeroC c then some (s, col, c :: r, b.lead)
    else if isBlankC c || isBreakC c then
      match eatBlanks indent b col (c :: r) with
      | none => none
      | some (b', col', r') => if col' < indent then some (s, col', r', b'.lead) else plainText indent fuel true s b' col' r'
    else if c = ':' && followedBy r then some (s, col, c :: r, b.lead)
    else plainText indent fuel false (s ++ b.join ++ [c]) {} (col + 1) r

/-- scanner.go:3191-3203: the characters which end a plain scalar in flow context -/
def flowEnds (c : Char) : Bool := [',', ':', '?', '[', ']', '{', '}'].contains c

/-- scanner.go:3142-3318 `yaml_parser_scan_plain_scalar` in flow context, see `plainText`: more characters end it, `x:x` is an error, and the
indentation of following lines does not matter -/
def plainFlow (indent : Nat) : Nat → (head : Bool) → YText → Blanks → Nat → YText → Option (YText × Nat × YText × Bool)
  | 0, _, _, _, _, _ => none
  | _ + 1, _, s, b, col, [] => some (s, col, [], b.lead)
  | fuel + 1, head, s, b, col, c :: r =>
    if head && ((col = 0 && docMarker (c :: r)) || c = '#') then some (s, col, c :: r, b.lead)
    else if isZeroC c then some (s, col, c :: r, b.lead)
    else if isBlankC c || isBreakC c then
      match eatBlanks indent b col (c :: r) with
      | none => none
      | some (b', col', r') => plainFlow indent fuel true s b' col' r'
    else if c = ':' && !followedBy r then none
    else if flowEnds c then some (s, col, c :: r, b.lead)
    else plainFlow indent fuel false (s ++ b.join ++ [c]) {} (col + 1) r

/-- scanner.go:2552-2620: chomping and increment -/
def readHints : YText → Option (Int × Nat × YText)
  | '+' :: r => readDigit 1 r
  | '-' :: r => readDigit (-1) r
  | c :: r =>
    if '0' ≤ c ∧ c ≤ '9' then
      if c = '0' then none
      else match r with
        | '+' :: r' => some (1, c.toNat - '0'.toNat, r')
        | '-' :: r' => some (-1, c.toNat - '0'.toNat, r')
        | _ => some (0, c.toNat - '0'.toNat, r)
    else some (0, 0, c :: r)
  | [] => some (0, 0, [])
where
  /-- scanner.go:2576-2596: a digit behind the chomping indicator -/
  readDigit (ch : Int) : YText → Option (Int × Nat × YText)
    | c :: r => if '0' ≤ c ∧ c ≤ '9' then (if c = '0' then none else some (ch, c.toNat - '0'.toNat, r)) else some (ch, 0, c :: r)
    | [] => some (ch, 0, [])

/-- `is_breakz_at` -/
def isBreakzC (c : Char) : Bool := isBreakC c || isZeroC c

/-- scanner.go:2624-2660: blanks and a comment up to the end of the line -/
def restOfLine (t : YText) : Option YText :=
  let t := t.dropWhile isBlankC
  let t := if t.head? = some '#' then t.dropWhile (fun c => !isBreakzC c) else t
  match t with
  | [] => some []
  | '\r' :: '\n' :: r => some r
  | c :: r => if isBreakC c then some r else if isZeroC c then some (c :: r) else none

/-- scanner.go:2780-2838 `yaml_parser_scan_block_scalar_breaks`, the loop: breaks, the greatest column, column and text; `none`: a tab in the
indentation -/
def blockBreaks (indent : Nat) : (breaks : YText) → (most col : Nat) → YText → Option (YText × Nat × Nat × YText)
  | bs, most, col, [] => some (bs, max most col, col, [])
  | bs, most, col, '\r' :: '\n' :: r => blockBreaks indent (bs ++ ['\n']) (max most col) 0 r
  | bs, most, col, c :: r =>
    if (indent = 0 || col < indent) && c = ' ' then blockBreaks indent bs most (col + 1) r
    else if (indent = 0 || col < indent) && c = '\t' then none
    else if isBreakC c then blockBreaks indent (bs ++ [normBreak c]) (max most col) 0 r
    else some (bs, max most col, col, c :: r)

/-- scanner.go:2826-2836: the indentation, if it is not determined yet -/
def blockIndent (parserIndent : Int) (indent most : Nat) : Nat :=
  if indent = 0 then max (max most (parserIndent + 1).toNat) 1 else indent

/-- scanner.go:557-594 `read_line`: the break, the column behind it and the rest; nothing at NUL and at the end -/
def readLine (col : Nat) : YText → YText × Nat × YText
  | [] => ([], col, [])
  | '\r' :: '\n' :: r => (['\n'], 0, r)
  | c :: r => if isBreakC c then ([normBreak c], 0, r) else ([], col, c :: r)

/-- `!is_z` at the current position -/
def notAtEnd : YText → Bool
  | [] => false
  | c :: _ => !isZeroC c

/-- scanner.go:2690-2745: the lines of a literal scalar; the fuel is the number of lines. `lead`: the break at the end of the last line,
`trail`: those behind it. -/
def blockLines (indent : Nat) : Nat → (s lead trail : YText) → Nat → YText → Option (YText × YText × YText × Nat × YText)
  | 0, _, _, _, _, _ => none
  | fuel + 1, s, lead, trail, col, t =>
    if col = indent && notAtEnd t then
      let line := t.takeWhile (fun c => !isBreakzC c)
      let after := readLine (col + line.length) (t.dropWhile (fun c => !isBreakzC c))
      match blockBreaks indent [] 0 after.2.1 after.2.2 with
      | none => none
      | some (bs, _, col', t') => blockLines indent fuel (s ++ lead ++ trail ++ line) after.1 bs col' t'
    else some (s, lead, trail, col, t)

/-- scanner.go:2541-2768 `yaml_parser_scan_block_scalar` for literal scalars, behind the indicator `|`: value, column and text behind the scalar -/
def blockText (parserIndent : Int) (t : YText) : Option (YText × Nat × YText) :=
  match readHints t with
  | none => none
  | some (chomp, inc, t1) => match restOfLine t1 with
    | none => none
    | some t2 =>
      let i0 : Nat := if inc > 0 then (if parserIndent ≥ 0 then parserIndent.toNat + inc else inc) else 0
      match blockBreaks i0 [] 0 0 t2 with
      | none => none
      | some (bs, most, col, t3) =>
        match blockLines (blockIndent parserIndent i0 most) (t3.length + 1) [] [] bs col t3 with
        | none => none
        | some (s, lead, trail, col', t4) =>
          some (s ++ (if chomp ≠ -1 then lead else []) ++ (if chomp = 1 then trail else []), col', t4)

/-- the kinds of tokens -/
inductive TokKind where
  | streamEnd | directive | documentStart | documentEnd
  | flowSeqStart | flowMapStart | flowSeqEnd | flowMapEnd | flowEntry
  | blockEntry | key | value | alias | anchor | tag
  | literal | folded | single | double | plain
  | bad
deriving DecidableEq, Repr

/-- `is_blank` at the next position -/
def blankNext : YText → Bool
  | d :: _ => isBlankC d
  | [] => false

/-- scanner.go:748-905 `yaml_parser_fetch_next_token`: the kind of the token at a position in block context -/
def tokenKind (col : Nat) : YText → TokKind
  | [] => .streamEnd
  | c :: r =>
    if isZeroC c then .streamEnd
    else if col = 0 && c = '%' then .directive
    else if col = 0 && c = '-' && docMarker (c :: r) then .documentStart
    else if col = 0 && c = '.' && docMarker (c :: r) then .documentEnd
    else if c = '[' then .flowSeqStart
    else if c = '{' then .flowMapStart
    else if c = ']' then .flowSeqEnd
    else if c = '}' then .flowMapEnd
    else if c = ',' then .flowEntry
    else if c = '-' && followedBy r then .blockEntry
    else if c = '?' && followedBy r then .key
    else if c = ':' && followedBy r then .value
    else if c = '*' then .alias
    else if c = '&' then .anchor
    else if c = '!' then .tag
    else if c = '|' then .literal
    else if c = '>' then .folded
    else if c = '\'' then .single
    else if c = '"' then .double
    else if !(isBlankzC c || ['-', '?', ':', ',', '[', ']', '{', '}', '#', '&', '*', '!', '|', '>', '\'', '"', '%', '@', '`'].contains c)
      || ((c = '-' || c = '?' || c = ':') && !blankNext r) then .plain
    else .bad

/-- scanner.go:748-905: the kind of the token at a position in flow context: `?` and `:` are indicators whatever follows, and there are no block
scalars -/
def flowKind (col : Nat) : YText → TokKind
  | '?' :: _ => .key
  | ':' :: _ => .value
  | '|' :: _ => .bad
  | '>' :: _ => .bad
  | t => tokenKind col t

/-- a scalar token: style, value, column and text behind it, and whether a line break was consumed behind it -/
structure ScalarTok where
  style : YStyle
  value : YText
  col : Nat
  rest : YText
  broken : Bool
deriving DecidableEq, Repr

/-- scanner.go:845-905: a scalar is scanned; `parserIndent` is `parser.indent`. `none`: no scalar, or an error. -/
def scanScalar (parserIndent : Int) (col : Nat) (t : YText) : Option ScalarTok :=
  match tokenKind col t with
  | .literal => (blockText parserIndent (t.drop 1)).map (fun r => ⟨.literal, r.1, r.2.1, r.2.2, false⟩)
  | .single => (flowText true t.length [] (col + 1) (t.drop 1)).map (fun r => ⟨.single, r.1, r.2.1, r.2.2, false⟩)
  | .double => (flowText false t.length [] (col + 1) (t.drop 1)).map (fun r => ⟨.double, r.1, r.2.1, r.2.2, false⟩)
  | .plain => (plainText (parserIndent + 1).toNat (t.length + 1) true [] {} col t).map (fun r => ⟨.plain, r.1, r.2.1, r.2.2.1, r.2.2.2⟩)
  | _ => none

/-- scanner.go:845-905: a scalar is scanned in flow context -/
def scanFlowScalar (parserIndent : Int) (col : Nat) (t : YText) : Option ScalarTok :=
  match flowKind col t with
  | .single => (flowText true t.length [] (col + 1) (t.drop 1)).map (fun r => ⟨.single, r.1, r.2.1, r.2.2, false⟩)
  | .double => (flowText false t.length [] (col + 1) (t.drop 1)).map (fun r => ⟨.double, r.1, r.2.1, r.2.2, false⟩)
  | .plain => (plainFlow (parserIndent + 1).toNat (t.length + 1) true [] {} col t).map (fun r => ⟨.plain, r.1, r.2.1, r.2.2.1, r.2.2.2⟩)
  | _ => none

end Spiff
