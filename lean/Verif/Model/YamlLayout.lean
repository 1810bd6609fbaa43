import Verif.Model.YamlText
/-
Model of the layout of documents: the state machine of legacy/candiedyaml/emitter.go writing the events of a document, the token scanner of
legacy/candiedyaml/scanner.go (indentation and simple keys), and the state machine of legacy/candiedyaml/parser.go.

Simplifications: all input is available, buffers are not modelled. The emitter looks at the next event only; the code waits for up to three
more events (emitter.go:150-185). The queue of tokens is modelled as the list of all tokens: the code does not hand out a token as long as a
`KEY` token may be inserted in front of it (scanner.go:661-713). Not modelled, and rejected here: directives, anchors, aliases, tags, folded
scalars (nothing of this is ever written).
-/
namespace Spiff

/-! ### writing, emitter.go -/

/-- the states of the emitter which are reached for the content of a document -/
inductive EmitMode where
  | documentContent | documentEnd
  | flowSeqFirst | flowMapFirst
  | blockSeqFirst | blockSeqItem
  | blockMapFirst | blockMapKey | blockMapSimpleValue | blockMapValue
deriving DecidableEq, Repr

/-- emitter.go `yaml_emitter_t`: state and stack of states, indentation and stack of indentations (the last entry first), whether the current
node belongs to a mapping, position -/
structure Emitter where
  mode : EmitMode
  modes : List EmitMode
  indent : Int
  indents : List Int
  mapCtx : Bool
  pos : EPos
deriving DecidableEq, Repr

/-- emitter.go:305-352 `yaml_emitter_emit_stream_start`, and the start of the first (implicit) document, emitter.go:358-453: nothing is written -/
def Emitter.start : Emitter := ⟨.documentContent, [], -1, [], false, ⟨0, true, true⟩⟩

/-- the result of a step: the text written and the new state -/
abbrev Emitted := Option (YText × Emitter)

/-- a text is written in front -/
def put (t : YText) (r : Emitted) : Emitted := r.map (fun x => (t ++ x.1, x.2))

/-- emitter.go:218-233 `yaml_emitter_increase_indent`; `best_indent` is 2 -/
def increaseIndent (flow indentless : Bool) (s : Emitter) : Emitter :=
  { s with indents := s.indent :: s.indents
           indent := if s.indent < 0 then (if flow then 2 else 0) else if indentless then s.indent else s.indent + 2 }

/-- the last indentation is restored -/
def popIndent (s : Emitter) : Option Emitter :=
  match s.indents with
  | [] => none
  | i :: r => some { s with indent := i, indents := r }

/-- the last state is restored -/
def popMode (s : Emitter) : Option Emitter :=
  match s.modes with
  | [] => none
  | m :: r => some { s with mode := m, modes := r }

/-- emitter.go:1483-1511: the indentation written; negative ones are taken for 0 -/
def indentText (s : Emitter) : YText × EPos := writeIndent s.indent.toNat s.pos

/-- emitter.go:817-840 `yaml_emitter_emit_scalar`; the style is already selected (Model/YamlOut) -/
def emitScalar (simple : Bool) (v : YText) (st : YStyle) (s : Emitter) : Emitted :=
  let s1 := increaseIndent true false s
  let w := writeText simple s1.indent.toNat s.pos st v
  ((popIndent { s1 with pos := w.2 }).bind popMode).map (fun s2 => (w.1, s2))

/-- emitter.go:770-796 `yaml_emitter_emit_node`, 846-863 `yaml_emitter_emit_sequence_start`, 869-886 `yaml_emitter_emit_mapping_start`: empty
collections are written in flow style. `map`: the context is a mapping, `simple`: a simple key -/
def emitNode (map simple : Bool) (ev : WEvent) (next : Option WEvent) (s : Emitter) : Emitted :=
  let s := { s with mapCtx := map }
  match ev with
  | .scalar v st => emitScalar simple v st s
  | .seqStart => some ([], { s with mode := if next = some .seqEnd then .flowSeqFirst else .blockSeqFirst })
  | .mapStart => some ([], { s with mode := if next = some .mapEnd then .flowMapFirst else .blockMapFirst })
  | _ => none

/-- emitter.go:527-573 `yaml_emitter_emit_flow_sequence_item` and emitter.go:579-638 `yaml_emitter_emit_flow_mapping_key`, for the first event
being the end of the collection -/
def emitEmpty (opening closing : Char) (s : Emitter) : Emitted :=
  let o := writeIndicator [opening] true true false s.pos
  let s1 := increaseIndent true false { s with pos := o.2 }
  (popIndent s1).bind fun s2 =>
    let c := writeIndicator [closing] false false false s2.pos
    (popMode { s2 with pos := c.2 }).map (fun s3 => (o.1 ++ c.1, s3))

/-- emitter.go:669-699 `yaml_emitter_emit_block_sequence_item`: the end of the sequence, or the next item -/
def emitSeqItem (ev : WEvent) (next : Option WEvent) (s : Emitter) : Emitted :=
  if ev = .seqEnd then ((popIndent s).bind popMode).map (fun s => ([], s))
  else
    let i := indentText s
    let d := writeIndicator ['-'] true false true i.2
    put (i.1 ++ d.1) (emitNode false false ev next { s with modes := .blockSeqItem :: s.modes, pos := d.2 })

/-- emitter.go:926-969 `yaml_emitter_check_simple_key` for scalars and empty collections (keys are scalars; the collections are not simple
here) -/
def simpleKeyEvent : WEvent → Bool
  | .scalar v _ => checkSimpleKey v
  | _ => false

/-- emitter.go:705-740 `yaml_emitter_emit_block_mapping_key`: the end of the mapping, or the next key -/
def emitMapKey (ev : WEvent) (next : Option WEvent) (s : Emitter) : Emitted :=
  if ev = .mapEnd then ((popIndent s).bind popMode).map (fun s => ([], s))
  else
    let i := indentText s
    if simpleKeyEvent ev then
      put i.1 (emitNode true true ev next { s with modes := .blockMapSimpleValue :: s.modes, pos := i.2 })
    else
      let q := writeIndicator ['?'] true false true i.2
      put (i.1 ++ q.1) (emitNode true false ev next { s with modes := .blockMapValue :: s.modes, pos := q.2 })

/-- emitter.go:746-764 `yaml_emitter_emit_block_mapping_value` -/
def emitMapValue (simple : Bool) (ev : WEvent) (next : Option WEvent) (s : Emitter) : Emitted :=
  if simple then
    let c := writeIndicator [':'] false false false s.pos
    put c.1 (emitNode true false ev next { s with modes := .blockMapKey :: s.modes, pos := c.2 })
  else
    let i := indentText s
    let c := writeIndicator [':'] true false true i.2
    put (i.1 ++ c.1) (emitNode true false ev next { s with modes := .blockMapKey :: s.modes, pos := c.2 })

/-- emitter.go:239-299 `yaml_emitter_state_machine` -/
def emitStep (ev : WEvent) (next : Option WEvent) (s : Emitter) : Emitted :=
  match s.mode with
  | .documentContent => emitNode false false ev next { s with modes := .documentEnd :: s.modes }
  | .documentEnd => none
  | .flowSeqFirst => if ev = .seqEnd then emitEmpty '[' ']' s else none
  | .flowMapFirst => if ev = .mapEnd then emitEmpty '{' '}' s else none
  | .blockSeqFirst => emitSeqItem ev next (increaseIndent false (s.mapCtx && !s.pos.ind) s)
  | .blockSeqItem => emitSeqItem ev next s
  | .blockMapFirst => emitMapKey ev next (increaseIndent false false s)
  | .blockMapKey => emitMapKey ev next s
  | .blockMapSimpleValue => emitMapValue true ev next s
  | .blockMapValue => emitMapValue false ev next s

/-- emitter.go:125-139 `yaml_emitter_emit` for a sequence of events -/
def emitAll : List WEvent → Emitter → Emitted
  | [], s => some ([], s)
  | ev :: r, s => (emitStep ev r.head? s).bind fun x => put x.1 (emitAll r x.2)

/-- encode.go:64-97: the text of a document: its content, and the end of the document, emitter.go:495-520 `yaml_emitter_emit_document_end`; the
end of the stream writes nothing, because `open_ended` is reset -/
def writeDocument (es : List WEvent) : Option YText :=
  (emitAll es .start).bind fun x => if x.2.mode = .documentEnd then some (x.1 ++ (indentText x.2).1) else none

/-- cmd/merge.go:389-396: what is printed for the text of a document (none: a document without content); `many`: there are several documents -/
def printDocument (many : Bool) (t : Option YText) : YText :=
  (if many || (t.getD []).isEmpty then "---\n".toList else []) ++ t.getD []

/-- cmd/merge.go:388-396: the output for documents -/
def printDocuments (ts : List (Option YText)) : YText := ts.flatMap (printDocument (decide (ts.length > 1)))

/-! ### scanning, scanner.go -/

/-- tokens -/
inductive YTok where
  | streamStart | streamEnd | documentStart | documentEnd
  | blockSeqStart | blockMapStart | blockEnd
  | flowSeqStart | flowSeqEnd | flowMapStart | flowMapEnd | flowEntry
  | blockEntry | key | value
  | scalar (style : YStyle) (value : YText)
deriving DecidableEq, Repr

/-- a possible simple key: whether it must be one, the number of its token, its column, and the text beginning with it (for its position) -/
structure SimpleKey where
  required : Bool
  number : Nat
  col : Nat
  text : YText
deriving DecidableEq, Repr

/-- scanner.go, the state of the scanner: remaining text, column, indentation and stack of indentations (the last one first), flow level, whether
a simple key may begin here, possible simple keys for the flow levels (the innermost first), and the tokens found -/
structure Scanner where
  text : YText
  col : Nat
  indent : Int
  indents : List Int
  flow : Nat
  allowed : Bool
  keys : List (Option SimpleKey)
  toks : List YTok
deriving DecidableEq, Repr

/-- scanner.go:1776-1845 `yaml_parser_scan_to_next_token`: spaces, comments and line breaks; a line break permits simple keys in block context.
Yields `simple_key_allowed`, the column and the remaining text. -/
def toNext (flow : Nat) : (allowed comment : Bool) → (col : Nat) → YText → Bool × Nat × YText
  | allowed, _, col, [] => (allowed, col, [])
  | allowed, comment, col, c :: r =>
    if isBreakC c then toNext flow (allowed || flow = 0) false 0 r
    else if comment then (if isZeroC c then (allowed, col, c :: r) else toNext flow allowed true (col + 1) r)
    else if c = ' ' || (c = '\t' && (flow > 0 || !allowed)) || (col = 0 && c = '\uFEFF') then toNext flow allowed false (col + 1) r
    else if c = '#' then toNext flow allowed true (col + 1) r
    else (allowed, col, c :: r)

/-- scanner.go:943-946: a simple key ends on its line, and has at most 1024 characters -/
def keyStale (k : SimpleKey) (text : YText) : Bool :=
  let seen := k.text.take (k.text.length - text.length)
  seen.any isBreakC || 1024 < seen.length

/-- scanner.go:931-960 `yaml_parser_stale_simple_keys` -/
def staleKeys (text : YText) : List (Option SimpleKey) → Option (List (Option SimpleKey))
  | [] => some []
  | none :: r => (staleKeys text r).map (none :: ·)
  | some k :: r =>
    if keyStale k text then (if k.required then none else (staleKeys text r).map (none :: ·))
    else (staleKeys text r).map (some k :: ·)

/-- scanner.go:1124-1139 and 1159-1172: the loop; yields the number of levels left, and the remaining levels -/
def unrollLevels (col : Int) : Int → List Int → Nat × Int × List Int
  | indent, [] => (0, indent, [])
  | indent, i :: r => if indent > col then let u := unrollLevels col i r; (u.1 + 1, u.2) else (0, indent, i :: r)

/-- scanner.go:1107-1142 `yaml_parser_unroll_indent`, and (`col = -1`) 1150-1175 `yaml_parser_reset_indent` -/
def unrollIndent (col : Int) (s : Scanner) : Scanner :=
  if s.flow > 0 then s
  else
    let u := unrollLevels col s.indent s.indents
    { s with indent := u.2.1, indents := u.2.2, toks := s.toks ++ List.replicate u.1 .blockEnd }

/-- yaml_privateh.go:224-242 `insert_token` -/
def insertTok (n : Nat) (t : YTok) (l : List YTok) : List YTok := l.take n ++ t :: l.drop n

/-- scanner.go:1067-1099 `yaml_parser_roll_indent` -/
def rollIndent (col number : Nat) (t : YTok) (s : Scanner) : Scanner :=
  if s.flow > 0 then s
  else if s.indent < col then { s with indents := s.indent :: s.indents, indent := col, toks := insertTok number t s.toks }
  else s

/-- scanner.go:1011-1029 `yaml_parser_remove_simple_key` -/
def removeKey (s : Scanner) : Option Scanner :=
  match s.keys with
  | [] => none
  | none :: _ => some s
  | some k :: r => if k.required then none else some { s with keys := none :: r }

/-- scanner.go:967-1005 `yaml_parser_save_simple_key`; the panic "impossible" is taken for an error -/
def saveKey (s : Scanner) : Option Scanner :=
  let required : Bool := s.flow = 0 && s.indent = s.col
  if required && !s.allowed then none
  else if s.allowed then
    (removeKey s).bind fun s => some { s with keys := some ⟨required, s.toks.length, s.col, s.text⟩ :: s.keys.tail }
  else some s

/-- an indicator of one character is consumed, its token is appended -/
def takeTok (t : YTok) (s : Scanner) : Scanner := { s with text := s.text.drop 1, col := s.col + 1, toks := s.toks ++ [t] }

/-- scanner.go:1213-1245 `yaml_parser_fetch_stream_end` -/
def fetchStreamEnd (s : Scanner) : Option Scanner :=
  (removeKey (unrollIndent (-1) { s with col := 0 })).map (fun s => { s with allowed := false, toks := s.toks ++ [.streamEnd] })

/-- scanner.go:1282-1322 `yaml_parser_fetch_document_indicator` -/
def fetchDocument (t : YTok) (s : Scanner) : Option Scanner :=
  (removeKey (unrollIndent (-1) s)).map (fun s => { s with allowed := false, text := s.text.drop 3, col := s.col + 3, toks := s.toks ++ [t] })

/-- scanner.go:1328-1366 `yaml_parser_fetch_flow_collection_start` -/
def fetchFlowStart (t : YTok) (s : Scanner) : Option Scanner :=
  (saveKey s).map (fun s => takeTok t { s with keys := none :: s.keys, flow := s.flow + 1, allowed := true })

/-- scanner.go:1372-1410 `yaml_parser_fetch_flow_collection_end` -/
def fetchFlowEnd (t : YTok) (s : Scanner) : Option Scanner :=
  (removeKey s).map (fun s => takeTok t
    { s with keys := if s.flow > 0 then s.keys.tail else s.keys, flow := s.flow - 1, allowed := false })

/-- scanner.go:1416-1445 `yaml_parser_fetch_flow_entry` -/
def fetchFlowEntry (s : Scanner) : Option Scanner := (removeKey s).map (fun s => takeTok .flowEntry { s with allowed := true })

/-- scanner.go:1451-1504 `yaml_parser_fetch_block_entry`; in flow context the parser will complain -/
def fetchBlockEntry (s : Scanner) : Option Scanner :=
  if s.flow = 0 && !s.allowed then none
  else (removeKey (rollIndent s.col s.toks.length .blockSeqStart s)).map (fun s => takeTok .blockEntry { s with allowed := true })

/-- scanner.go:1510-1556 `yaml_parser_fetch_key` -/
def fetchKey (s : Scanner) : Option Scanner :=
  if s.flow = 0 && !s.allowed then none
  else (removeKey (rollIndent s.col s.toks.length .blockMapStart s)).map (fun s => takeTok .key { s with allowed := s.flow = 0 })

/-- scanner.go:1562-1638 `yaml_parser_fetch_value` -/
def fetchValue (s : Scanner) : Option Scanner :=
  match s.keys with
  | [] => none
  | some k :: r =>
    let s := rollIndent k.col k.number .blockMapStart { s with toks := insertTok k.number .key s.toks }
    some (takeTok .value { s with keys := none :: r, allowed := false })
  | none :: _ =>
    if s.flow = 0 && !s.allowed then none
    else some (takeTok .value { rollIndent s.col s.toks.length .blockMapStart s with allowed := s.flow = 0 })

/-- a scalar is scanned (Model/YamlText) -/
def scanTok (s : Scanner) : Option Scanner :=
  (if s.flow = 0 then scanScalar s.indent s.col s.text else scanFlowScalar s.indent s.col s.text).map (fun t =>
    { s with text := t.rest, col := t.col, allowed := s.allowed || t.broken, toks := s.toks ++ [.scalar t.style t.value] })

/-- scanner.go:1697-1717 `yaml_parser_fetch_block_scalar` -/
def fetchBlockScalar (s : Scanner) : Option Scanner := (removeKey s).bind fun s => scanTok { s with allowed := true }

/-- scanner.go:1723-1744 `yaml_parser_fetch_flow_scalar`, `yaml_parser_fetch_plain_scalar` -/
def fetchFlowScalar (s : Scanner) : Option Scanner := (saveKey s).bind fun s => scanTok { s with allowed := false }

/-- scanner.go:757-923: the function for the kind of the next token -/
def dispatch (s : Scanner) : Option Scanner :=
  match if s.flow = 0 then tokenKind s.col s.text else flowKind s.col s.text with
  | .streamEnd => fetchStreamEnd s
  | .documentStart => fetchDocument .documentStart s
  | .documentEnd => fetchDocument .documentEnd s
  | .flowSeqStart => fetchFlowStart .flowSeqStart s
  | .flowMapStart => fetchFlowStart .flowMapStart s
  | .flowSeqEnd => fetchFlowEnd .flowSeqEnd s
  | .flowMapEnd => fetchFlowEnd .flowMapEnd s
  | .flowEntry => fetchFlowEntry s
  | .blockEntry => fetchBlockEntry s
  | .key => fetchKey s
  | .value => fetchValue s
  | .literal => fetchBlockScalar s
  | .single => fetchFlowScalar s
  | .double => fetchFlowScalar s
  | .plain => fetchFlowScalar s
  | _ => none

/-- scanner.go:734-748: blanks are skipped, simple keys and levels left behind are removed -/
def settle (s : Scanner) : Option Scanner :=
  let n := toNext s.flow s.allowed false s.col s.text
  (staleKeys n.2.2 s.keys).map (fun keys => unrollIndent n.2.1 { s with allowed := n.1, col := n.2.1, text := n.2.2, keys := keys })

/-- scanner.go:719-924 `yaml_parser_fetch_next_token` -/
def fetchNext (s : Scanner) : Option Scanner := (settle s).bind dispatch

/-- scanner.go:601-713: all tokens; `n` bounds their number -/
def scanAll : Nat → Scanner → Option (List YTok)
  | 0, _ => none
  | n + 1, s => (fetchNext s).bind fun s => if s.toks.getLast? = some .streamEnd then some s.toks else scanAll n s

/-- scanner.go:1181-1207 `yaml_parser_fetch_stream_start` -/
def Scanner.start (t : YText) : Scanner := ⟨t, 0, -1, [], 0, true, [none], [.streamStart]⟩

/-- the tokens of a text; each token but the last one consumes a character -/
def scanText (t : YText) : Option (List YTok) := scanAll (t.length + 1) (.start t)

/-! ### parsing, parser.go -/

/-- the states of the parser -/
inductive ParseMode where
  | streamStart | implicitDocumentStart | documentStart | documentContent | documentEnd
  | blockNode | blockSeqFirst | blockSeqEntry | indentlessEntry
  | blockMapFirst | blockMapKey | blockMapValue
  | flowSeqFirst | flowSeqEntry | flowSeqMapKey | flowSeqMapValue | flowSeqMapEnd
  | flowMapFirst | flowMapKey | flowMapValue | flowMapEmptyValue
  | done
deriving DecidableEq, Repr

/-- state, stack of states (the last one first), remaining tokens -/
structure Parser where
  mode : ParseMode
  modes : List ParseMode
  toks : List YTok
deriving DecidableEq, Repr

/-- an event and the new state -/
abbrev Parsed := Option (YEvent × Parser)

/-- an event is delivered, and the last state is restored -/
def popParse (e : YEvent) (p : Parser) : Parsed :=
  match p.modes with
  | [] => none
  | m :: r => some (e, { p with mode := m, modes := r })

/-- parser.go:1128-1140 `yaml_parser_process_empty_scalar` -/
def emptyScalar : YEvent := .scalar "" { value := [] }

/-- parser.go:421-648 `yaml_parser_parse_node` in flow context -/
def parseFlowNode (p : Parser) : Parsed :=
  match p.toks with
  | .scalar st v :: r => popParse (.scalar "" { value := v, implicit := st = .plain }) { p with toks := r }
  | .flowSeqStart :: _ => some (.seqStart "", { p with mode := .flowSeqFirst })
  | .flowMapStart :: _ => some (.mapStart "", { p with mode := .flowMapFirst })
  | _ => none

/-- parser.go:421-648 `yaml_parser_parse_node` in block context -/
def parseNode (indentless : Bool) (p : Parser) : Parsed :=
  match p.toks with
  | .scalar st v :: r => popParse (.scalar "" { value := v, implicit := st = .plain }) { p with toks := r }
  | .blockEntry :: _ => if indentless then some (.seqStart "", { p with mode := .indentlessEntry }) else none
  | .flowSeqStart :: _ => some (.seqStart "", { p with mode := .flowSeqFirst })
  | .flowMapStart :: _ => some (.mapStart "", { p with mode := .flowMapFirst })
  | .blockSeqStart :: _ => some (.seqStart "", { p with mode := .blockSeqFirst })
  | .blockMapStart :: _ => some (.mapStart "", { p with mode := .blockMapFirst })
  | _ => none

/-- parser.go:242-327 `yaml_parser_parse_document_start` -/
def parseDocumentStart (implicit : Bool) (p : Parser) : Parsed :=
  match if implicit then p.toks else p.toks.dropWhile (· = .documentEnd) with
  | [] => none
  | .streamEnd :: r => some (.streamEnd, ⟨.done, p.modes, r⟩)
  | .documentStart :: r => some (.docStart, ⟨.documentContent, .documentEnd :: p.modes, r⟩)
  | t :: r => if implicit then some (.docStart, ⟨.blockNode, .documentEnd :: p.modes, t :: r⟩) else none

/-- parser.go:335-353 `yaml_parser_parse_document_content` -/
def parseDocumentContent (p : Parser) : Parsed :=
  match p.toks with
  | [] => none
  | .documentStart :: _ => popParse emptyScalar p
  | .documentEnd :: _ => popParse emptyScalar p
  | .streamEnd :: _ => popParse emptyScalar p
  | _ => parseNode false p

/-- parser.go:363-390 `yaml_parser_parse_document_end` -/
def parseDocumentEnd (p : Parser) : Parsed :=
  match p.toks with
  | [] => none
  | .documentEnd :: r => some (.docEnd, { p with mode := .documentStart, toks := r })
  | _ => some (.docEnd, { p with mode := .documentStart })

/-- parser.go:656-705 `yaml_parser_parse_block_sequence_entry` -/
def parseSeqEntry (p : Parser) : Parsed :=
  match p.toks with
  | .blockEntry :: .blockEntry :: r => some (emptyScalar, { p with mode := .blockSeqEntry, toks := .blockEntry :: r })
  | .blockEntry :: .blockEnd :: r => some (emptyScalar, { p with mode := .blockSeqEntry, toks := .blockEnd :: r })
  | .blockEntry :: t :: r => parseNode false { p with modes := .blockSeqEntry :: p.modes, toks := t :: r }
  | .blockEnd :: r => popParse .seqEnd { p with toks := r }
  | _ => none

/-- tokens in front of which a missing node of a mapping is an empty scalar -/
def endsNode : YTok → Bool
  | .key => true
  | .value => true
  | .blockEnd => true
  | _ => false

/-- parser.go:713-748 `yaml_parser_parse_indentless_sequence_entry` -/
def parseIndentless (p : Parser) : Parsed :=
  match p.toks with
  | [] => none
  | .blockEntry :: t :: r =>
    if t = .blockEntry || endsNode t then some (emptyScalar, { p with mode := .indentlessEntry, toks := t :: r })
    else parseNode false { p with modes := .indentlessEntry :: p.modes, toks := t :: r }
  | [.blockEntry] => none
  | _ :: _ => popParse .seqEnd p

/-- parser.go:762-810 `yaml_parser_parse_block_mapping_key` -/
def parseMapKey (p : Parser) : Parsed :=
  match p.toks with
  | .key :: t :: r =>
    if endsNode t then some (emptyScalar, { p with mode := .blockMapValue, toks := t :: r })
    else parseNode true { p with modes := .blockMapValue :: p.modes, toks := t :: r }
  | .blockEnd :: r => popParse .mapEnd { p with toks := r }
  | _ => none

/-- parser.go:824-851 `yaml_parser_parse_block_mapping_value` -/
def parseMapValue (p : Parser) : Parsed :=
  match p.toks with
  | [] => none
  | .value :: t :: r =>
    if endsNode t then some (emptyScalar, { p with mode := .blockMapKey, toks := t :: r })
    else parseNode true { p with modes := .blockMapKey :: p.modes, toks := t :: r }
  | [.value] => none
  | _ :: _ => some (emptyScalar, { p with mode := .blockMapKey })

/-- parser.go:867-928 `yaml_parser_parse_flow_sequence_entry` at an entry, behind the comma -/
def parseFlowItem (p : Parser) : Parsed :=
  match p.toks with
  | .key :: r => some (.mapStart "", { p with mode := .flowSeqMapKey, toks := r })
  | .flowSeqEnd :: r => popParse .seqEnd { p with toks := r }
  | _ => parseFlowNode { p with modes := .flowSeqEntry :: p.modes }

/-- parser.go:867-928 `yaml_parser_parse_flow_sequence_entry`; `first`: behind the opening bracket -/
def parseFlowSeq (first : Bool) (p : Parser) : Parsed :=
  match if first then p.toks.drop 1 else p.toks with
  | .flowSeqEnd :: r => popParse .seqEnd { p with toks := r }
  | .flowEntry :: r => if first then none else parseFlowItem { p with toks := r }
  | t => if first then parseFlowItem { p with toks := t } else none

/-- parser.go:936-957 `yaml_parser_parse_flow_sequence_entry_mapping_key`; the token in front of which a key is missing is skipped -/
def parseFlowSeqKey (p : Parser) : Parsed :=
  match p.toks with
  | [] => none
  | .value :: r => some (emptyScalar, { p with mode := .flowSeqMapValue, toks := r })
  | .flowEntry :: r => some (emptyScalar, { p with mode := .flowSeqMapValue, toks := r })
  | .flowSeqEnd :: r => some (emptyScalar, { p with mode := .flowSeqMapValue, toks := r })
  | _ => parseFlowNode { p with modes := .flowSeqMapValue :: p.modes }

/-- parser.go:965-988 `yaml_parser_parse_flow_sequence_entry_mapping_value` -/
def parseFlowSeqValue (p : Parser) : Parsed :=
  match p.toks with
  | [] => none
  | [.value] => none
  | .value :: .flowEntry :: r => some (emptyScalar, { p with mode := .flowSeqMapEnd, toks := .flowEntry :: r })
  | .value :: .flowSeqEnd :: r => some (emptyScalar, { p with mode := .flowSeqMapEnd, toks := .flowSeqEnd :: r })
  | .value :: r => parseFlowNode { p with modes := .flowSeqMapEnd :: p.modes, toks := r }
  | _ => some (emptyScalar, { p with mode := .flowSeqMapEnd })

/-- parser.go:996-1010 `yaml_parser_parse_flow_sequence_entry_mapping_end` -/
def parseFlowSeqMapEnd (p : Parser) : Parsed :=
  match p.toks with
  | [] => none
  | _ => some (.mapEnd, { p with mode := .flowSeqEntry })

/-- parser.go:1028-1086 `yaml_parser_parse_flow_mapping_key` at an entry, behind the comma -/
def parseFlowField (p : Parser) : Parsed :=
  match p.toks with
  | .key :: .value :: r => some (emptyScalar, { p with mode := .flowMapValue, toks := .value :: r })
  | .key :: .flowEntry :: r => some (emptyScalar, { p with mode := .flowMapValue, toks := .flowEntry :: r })
  | .key :: .flowMapEnd :: r => some (emptyScalar, { p with mode := .flowMapValue, toks := .flowMapEnd :: r })
  | .key :: r => parseFlowNode { p with modes := .flowMapValue :: p.modes, toks := r }
  | .flowMapEnd :: r => popParse .mapEnd { p with toks := r }
  | _ => parseFlowNode { p with modes := .flowMapEmptyValue :: p.modes }

/-- parser.go:1028-1086 `yaml_parser_parse_flow_mapping_key`; `first`: behind the opening brace -/
def parseFlowMap (first : Bool) (p : Parser) : Parsed :=
  match if first then p.toks.drop 1 else p.toks with
  | .flowMapEnd :: r => popParse .mapEnd { p with toks := r }
  | .flowEntry :: r => if first then none else parseFlowField { p with toks := r }
  | t => if first then parseFlowField { p with toks := t } else none

/-- parser.go:1094-1123 `yaml_parser_parse_flow_mapping_value` -/
def parseFlowMapValue (missing : Bool) (p : Parser) : Parsed :=
  match p.toks with
  | [] => none
  | t => if missing then some (emptyScalar, { p with mode := .flowMapKey }) else match t with
    | [.value] => none
    | .value :: .flowEntry :: r => some (emptyScalar, { p with mode := .flowMapKey, toks := .flowEntry :: r })
    | .value :: .flowMapEnd :: r => some (emptyScalar, { p with mode := .flowMapKey, toks := .flowMapEnd :: r })
    | .value :: r => parseFlowNode { p with modes := .flowMapKey :: p.modes, toks := r }
    | _ => some (emptyScalar, { p with mode := .flowMapKey })

/-- parser.go:130-203 `yaml_parser_state_machine` -/
def parseStep (p : Parser) : Parsed :=
  match p.mode with
  | .streamStart => match p.toks with
    | .streamStart :: r => some (.streamStart, { p with mode := .implicitDocumentStart, toks := r })
    | _ => none
  | .implicitDocumentStart => parseDocumentStart true p
  | .documentStart => parseDocumentStart false p
  | .documentContent => parseDocumentContent p
  | .documentEnd => parseDocumentEnd p
  | .blockNode => parseNode false p
  | .blockSeqFirst => parseSeqEntry { p with toks := p.toks.drop 1 }
  | .blockSeqEntry => parseSeqEntry p
  | .indentlessEntry => parseIndentless p
  | .blockMapFirst => parseMapKey { p with toks := p.toks.drop 1 }
  | .blockMapKey => parseMapKey p
  | .blockMapValue => parseMapValue p
  | .flowSeqFirst => parseFlowSeq true p
  | .flowSeqEntry => parseFlowSeq false p
  | .flowSeqMapKey => parseFlowSeqKey p
  | .flowSeqMapValue => parseFlowSeqValue p
  | .flowSeqMapEnd => parseFlowSeqMapEnd p
  | .flowMapFirst => parseFlowMap true p
  | .flowMapKey => parseFlowMap false p
  | .flowMapValue => parseFlowMapValue false p
  | .flowMapEmptyValue => parseFlowMapValue true p
  | .done => none

/-- parser.go:85-99 `yaml_parser_parse`, called until the end of the stream; `n` bounds the number of events -/
def parseAll : Nat → Parser → Option (List YEvent)
  | 0, _ => none
  | n + 1, p => (parseStep p).bind fun x => if x.1 = .streamEnd then some [x.1] else (parseAll n x.2).map (x.1 :: ·)

/-- the events of a list of tokens: a token yields at most four events -/
def parseTokens (l : List YTok) : Option (List YEvent) := parseAll (4 * l.length) ⟨.streamStart, [], l⟩

/-- legacy/candiedyaml/reader.go:386-400: the characters accepted in a text -/
def isReadableC (c : Char) : Bool :=
  c.toNat = 0x09 || c.toNat = 0x0A || c.toNat = 0x0D || (0x20 ≤ c.toNat && c.toNat ≤ 0x7E) || c.toNat = 0x85 ||
  (0xA0 ≤ c.toNat && c.toNat ≤ 0xD7FF) || (0xE000 ≤ c.toNat && c.toNat ≤ 0xFFFD) || 0x10000 ≤ c.toNat

/-- the events of a text -/
def readEvents (t : YText) : Option (List YEvent) := if t.all isReadableC then (scanText t).bind parseTokens else none

/-! ### documents, yaml/parser.go -/

variable {E : Type}

/-- legacy/candiedyaml/encode.go:62-67 `Marshal` -/
def marshal (X : YLib) (F : Nat → YText) (n : Node E) : Option YText := (encode X F n).bind writeDocument

/-- yaml/parser.go:45: the trimmed characters -/
def isTrimmedC (c : Char) : Bool := c = ' ' || c = '\t' || c = '\n' || c = '\r'

/-- yaml/parser.go:42-66 `ParseMulti`: the documents of a text. An error also for texts with features not modelled here, see above. -/
def parseDocuments (X : YLib) (fuel : Nat) (src : String) (t : YText) : YRes (List (Node E)) :=
  match readEvents (if t.all isTrimmedC then "---\n".toList else t) with
  | none => .error
  | some es => (yDecode X fuel es).bind fun ds => match sanitizeL src ds with
    | some ns => .ok ns
    | none => .error

end Spiff
