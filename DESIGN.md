# Formal model of mandelsoft/spiff in Lean 4

## Trusted base
* Lean 4.33.0 kernel. The theorems depend on the axioms `propext`, `Quot.sound` and
  `Classical.choice` of Lean at most; no own axioms, no compiled evaluation
  (closed examples use `decide +kernel`, i.e. kernel reduction). The axioms of every
  theorem of the manifest are listed in `AXIOMS.md` (generated by `tools/axioms.py`
  from `#print axioms`).
* The reading of the Go sources into `lean/Verif/Model/*.lean`. Every definition
  cites the file and lines it models; simplifications are stated in its comment.
* The statements in `lean/Verif/Spec/*.lean` and in the theorems as rendering of the
  English properties in `properties.jsonl`.

## Layout
* `Verif/Model/*.lean`  – the model (definitions only, with citations).
* `Verif/Spec/*.lean`   – small independent specifications (inductive relations and
  predicates that do not use the functions of the model).
* `Verif/Lemmas/*.lean` – helper lemmas.
* `Verif/Props/*.lean`  – property theorems and `example`s showing that the hypotheses
  are met by non-trivial cases. Theorems called `…_defect`, `…_wrong` etc. are
  witnesses that a natural stronger property is false of the code; the
  corresponding exception is part of the property's statement.
* `tools/` – generators for `properties.jsonl`, `MANIFEST.json`, `AXIOMS.md` and the
  mutation runner; `seeded/LOG.jsonl` – results of the mutation runs.

## Common simplifications
* Strings are sequences of characters (Go: bytes). Searching, splitting, comparing and
  prefix tests of valid UTF-8 text agree on both readings; functions addressing bytes
  (`substr`, base64 lines) are modelled on sequences of an arbitrary symbol type.
* `int64` is `Int` kept in range by `wrap64` where overflow matters. `float64` is a bit
  pattern; arithmetic on it is a parameter (`Lib`), equality is Go's (NaN ≠ NaN, 0 = -0).
* `map[string]Node` is an association list with unique keys (`MapOK`, `GoMaps`). Go's
  iteration order is arbitrary: order independence is stated as invariance under
  permutation, and where the result does depend on the order this is shown by a witness.
* Values are immutable in the models; Go shares slices. Where in-place changes of
  shared slices are observable this is modelled separately (`Model/Slice.lean`, C59;
  `evalLambdaExpr` for defaults of lambdas, C40).
* Error texts are dropped or abbreviated; whether there is an error is modelled. Go
  panics are an explicit outcome.
* Fuel: functions whose Go loop may not terminate take a step bound; theorems show that the
  result does not depend on it once it is reached.
* `sort.SliceStable` and `sort.Sort` are insertion sorts (the result of a stable sort, or
  of a sort without equal elements, does not depend on the algorithm).

## What is modelled
| Go | Lean | remarks |
|----|------|---------|
| yaml/node.go, yaml/find.go, yaml/equiv… | Node, Find, Equiv, Mask | nodes with all annotations; flags as record, related to the 64 bit masks in Props/Flags |
| yaml/interpolation.go, EmbeddedDynaml, UnescapeDynaml | Interp, Cleanup | JSON quoting of literals is a parameter |
| yaml/parser.go `Sanitize`, yaml/marshal.go `Normalize` | Sanitize | decoded data; `[]byte` is not modelled |
| legacy/candiedyaml/resolver.go, decode.go | Yaml | from the events of the parser to data, for the target type `interface{}`; strconv.ParseFloat, timestamps and base64 are parameters |
| legacy/candiedyaml/encode.go, emitter.go (analysis and styles of scalars) | YamlOut | from documents to events with the style of every scalar; strconv.FormatFloat is a parameter |
| flow/flow.go, flow/environment.go (loop, scopes, references) | Flow, Scope, Unresolved | generic in the expression language (`Lang`: parse, evaluate, markers); control feature off; tags not recorded here; the marker `&dynamic` is not modelled; TemplateValue keeps its node, not its binding |
| flow/cascade.go | Cleanup, Props/Cascade | generic in the flow function |
| flow/state.go | Tags, Files | tags and documents; temporary files and file cache with the hash, new file names and the contents of the world as parameters |
| flow/flow_control.go, dynaml/control.go, dynaml/control/*.go | Control, For | lambda calls and template substitution are parameters (`CtlLib`) |
| dynaml expressions (`Evaluate` of all forms but markers, lambdas, sync, tags) | Eval | compositional evaluator over a binding; builtin functions with info are a parameter (`EvLib.fn`); plugged into the flow by `exLang` |
| dynaml/lambda.go | Lambda | argument binding, currying, defaults; the body is abstract |
| flow/cascade.go with flow/flow.go (whole merges) | Merge | `Cascade` with the modelled flow and the modelled expressions; no streams, states and outer bindings |
| dynaml/lambda.go, call.go, scope.go, mapping.go (functions as values) | Closures | bodies are evaluated in captured and caller's scopes; operators, builtins and documents are parameters; defaults are literals |
| dynaml/mapping.go, select.go, filter.go, sum.go | Mapping | the lambda is a function on argument lists; source names are a parameter |
| dynaml/sync.go | Sync | state machine; clock and outcomes of sub expressions arbitrary |
| dynaml/validate.go, dns.go | Validate, Dns | lambda, regexp, IP and registered validators are parameters (`VLib`; but see Checks) |
| dynaml operators, ip.go, ipset.go, static_ips.go | Int64, IP, Ops | address syntax (package net) is a parameter |
| dynaml list, map and string functions, base64 | ListFns, StrFns | RFC 4648 codec modelled |
| Go slices below list concatenation, sort, reverse | Slice | histories over shared arrays, growth strategy a parameter |
| dynaml/exec.go cache | Files | outcome of a command is an oracle |
| dynaml/{write,archive,tempfile,mkdir,exec,pipe,lookup,files,env}.go | FileFns | arguments, options and results; YAML marshalling, tar, the file system and commands are parameters |
| dynaml/read.go, json.go (`parse`) | Read | YAML parser and processing are parameters |
| compare/compare.go | Compare | |
| dynaml/dynaml.peg(.go), dynaml/parser.go | Peg, Grammar, Syntax | the grammar as data with a big-step semantics; construction of the expression tree on the token stack; the String methods of the expressions; positions are characters (in Go they are rune positions used as byte positions, so token texts of non-ASCII sources differ) |
| cmd/{merge,run,convert,diff,root}.go | Command | files, web answers, standard input and options as data; YAML library, processing of one document and `--evaluate` are parameters; messages and cobra option parsing are not modelled |
| spiffing/spiff.go, features/, registries | Context | contexts as structures with a heap of feature maps and registries |
| cmd/merge.go: -D values, state file | Values, Files | file operations but writing are atomic; crash after any prefix of a write |
| dynaml/passwd, cmd/encrypt.go, dynaml/md5.go (hash) | Crypt | block cipher, HMAC, hash functions and YAML marshalling are parameters |
| dynaml/{convert,floatmath,rand,auto,basename}.go | Convert | floats are bit patterns with arbitrary operations; random source arbitrary |
| legacy/candiedyaml/emitter.go (texts of scalars), scanner.go (scalars, kinds of tokens) | YamlText | characters instead of bytes; no buffers, no folded blocks |
| legacy/candiedyaml/emitter.go (collections), scanner.go (tokens, indentation, simple keys), parser.go, yaml/parser.go:42-66 | YamlLayout | characters instead of bytes; no buffers; no directives, anchors, aliases, tags and folded scalars in texts |
| yaml/marshal.go:16-29, cmd/merge.go:388-398, dynaml/json.go:10-22, encoding/json Marshal | Json | text of floats is a parameter |
| legacy/candiedyaml/reader.go:50-463, yaml_privateh.go:45-63 | YamlBytes | one buffer for all input; read errors not modelled |
| cmd/merge.go composed with yaml/parser.go, flow/flow.go:21-25, legacy/candiedyaml | Pipeline | composition of the models above; expression language, texts of floats and the state between documents are parameters |
| spiffing/spiff.go (processing calls, tags, reset), flow/cascade.go with slices in place | Library | settings are opaque (see Context); processing is a parameter |
| dynaml/template.go | Template | the static resolver of `_` is a parameter; messages abbreviated; `&dynamic` not modelled |
| dynaml/json.go with the reader of bytes | TextFns | errors and crashes of the YAML encoder are not distinguished |
| dynaml/md5crypt.go, dynaml/crypt/*.go | Passwd | the MD5 sum of the Go library and the random numbers are parameters |
| spiffing/utils.go, spiffing/source.go | LibText | an unreadable source is a source without data |
| dynaml/wireguard/*.go | WgKeys | random bytes and curve25519 are parameters |
| dynaml/semver/*.go | SemVer | the package for versions is a parameter; the texts of errors are not modelled |
| dynaml/x509/{certificate,parsecert,fields,utils}.go | Certs | Go's packages for keys, certificates, times and addresses are parameters; the texts of errors are not modelled |
| dynaml/x509/{genkey,publickey,utils}.go | PubKeys | Go's packages for keys and PEM are parameters; the generators of keys are functions of the size or the curve |
| dynaml/match.go | Match | the package regexp is a parameter |
| dynaml/parseurl.go, bcrypt.go | Url | net/url and bcrypt are parameters |
| dynaml/validate.go (match, ip, cidr), dynaml/x509/validators.go | Checks | regexp, net, pem and x509 are parameters |
| dynaml/format.go, error.go | Format | fmt.Sprintf and the YAML encoder are parameters |
| yaml/equals.go | Equals | without the reason for a difference |

Not modelled: anchors, tags and directives in YAML texts (legacy/candiedyaml), other cryptography (x509 CSR),
HTTP and OS interaction (parameters), floating point, templates
of Go (`archive`), the debug output.

## Per property: model and proof
| id | model | proof |
|----|-------|-------|
| C01, C02 | Flow on documents without expressions | refinement to a recursive override specification (Spec/Override, Spec/Tree), induction over documents |
| C03–C06 | Flow, Find: one node of a pass, stub lookup, injection | case analysis of the pass for arbitrary `Lang`; the stub lookup by induction over the stubs |
| C07 | Flow: loop | induction over passes; termination of a pass by a size measure; `nan_diverges` by an invariant |
| C08 | Unresolved | structural induction |
| C09 | Cleanup: PrepareStubs, Apply, Cascade | induction over the stub list |
| C10–C12 | Cleanup | structural induction against positions and their annotations (Spec/Positions) |
| C13, C14 | Interp, Cleanup | string induction, state machine invariant against a grammar (Spec/Interpol) |
| C15 | Find | refinement to an inductive selection relation (Spec/Select) |
| C16, C17, C18 | Equiv, Compare, Sanitize | structural induction against content relations (Spec/Tree, Spec/Compare, Spec/Data) |
| C19–C21, C60 | Tags | invariants over operation histories |
| C22, C23, C57 | Files | history induction; collision and leak witnesses |
| C24, C25, C44 | Context | induction over configuration histories |
| C26, C51, C58 | IP, Ops | carry chain induction; numbers denoted by addresses (Spec/IP) |
| C27–C38, C54 | Ops, ListFns, StrFns | list/string induction against declarative specifications (Spec/Lists, Spec/Loose, Spec/MapFns) |
| C39 | Mapping | relations for visited entries and sums (Spec/Mapping) |
| C40 | Lambda | declarative binding relation (Spec/Lambda) |
| C41, C55, C56 | Eval with Flow | outcomes and refinement of documents (Spec/Eval, Spec/Delay); C56 by induction over expressions and monotonicity of lookups |
| C42, C43 | Control, For | recognition independent of order; odometer induction against the sorted cartesian product (Spec/Control, Spec/For) |
| C45 | Validate | structural induction over condition trees |
| C46 | Sync | invariant over evaluation histories |
| C47 | Values | path induction |
| C48 | Files | all intermediate file system states |
| C49 | Scope | induction over scope stacks |
| C50 | Flow: newEntries, processMerges, key tag | list induction against a key relation (Spec/ListMerge) |
| C59 | Slice | invariant over histories of list operations on shared arrays |
| C52, C53 | Mask | bit vectors, algebra |
| C61 | Peg, Grammar | rank function and nullability analysis of the grammar, well-founded induction over texts |
| C62 | Grammar, Syntax | typed stack: abstract execution of every rule (Lemmas/ParseTypes), soundness by induction over parses; structure of expressions in Spec/Syntax |
| C63 | Grammar, Syntax (String methods) | tables of facts about the behaviour of the parser at the text of each kind of expression, whatever follows; a symbolic execution of the grammar (Lemmas/PegSym, PegHole; soundness proved) derives the table of a composed text from those of its parts; induction over Printable (Spec/Print) |
| C64 | Eval (definedEv, validEv, requireEv, optionalEv, stubEv, catchEv) | kinds of outcomes (Spec/Intrinsics); position of the first argument of another kind; induction over the arguments |
| C65 | Eval (refFind, qualEv, dynEv), Find | outcome of the loop over the prefixes of a path, by induction; lookups in a value are the relation Reaches of C15 (Spec/Refs) |
| C66 | Syntax, Interp, Eval (toEx of Spec/Meaning relates both views of an expression) | print/parse round trip of C63 with surrounding blanks; evaluation is invariant under additional parentheses (simulation of all operators); residual equivalence of C56; induction over Printable for what is left |
| C67 | Command (cmd/merge.go read to the end; library, processing and expression evaluation are parameters) | inversion of every reading step into small relations (FileText, DocsOf, TagDef, Bindings, FeaturesOf), both directions; DocShown/DocsShown as big-step relation of the loop, equivalent to the run by induction over the documents |
| C68 | Command, Files | frame lemma for updateState over all its intermediate file systems; induction over the documents; sanitize_normalize for the state read back |
| C69 | Command | unfolding for process; relation DocConverted for convert, both directions by induction; simulation of the two loops for unchanged documents |
| C70 | Eval (projEv; the projected entry is part of the binding) | induction over the entries for the loop; the outcome of a path in a finished entry reduces to Reaches of C15 |
| C71 | Dns, Validate | languages of the regular expressions (Mathlib RegularExpression.matches') computed and compared with a description of the texts |
| C72 | Yaml (decoder state with replayed and recorded events) | simulation of the decoder by a recursive meaning of trees with anchors (Spec/Yaml), induction over trees, `Ends` for unbounded fuel; counterexamples executed symbolically for all scalars |
| C73 | Yaml (resolver) | every recognizer is equivalent to an inductive description of the notations (Spec/YamlScalar); totality and uniqueness |
| C74 | YamlOut, Yaml, Sanitize | the analysis loop is equivalent to conditions on positions of the text (Spec/YamlOut); induction over documents, reading by C72 and C73 |
| C75 | FileFns (write, options, tags, base64) | equivalence of the argument analysis with a description of name, options and bytes (Spec/FileFns); base64 round trip from C33's codec |
| C76 | FileFns (archive) | equivalence with an inductive description of the files of a value |
| C77 | FileFns (tempfile, mkdir) | equivalence as for C75 |
| C78 | FileFns (exec, pipe) | equivalence of command line and output conversion with inductive descriptions |
| C79 | FileFns (lookup, list, env) | equivalence; results characterised by membership, multiplicity and order |
| C80 | Read | soundness, completeness and failure of the mode table against an inductive description (Spec/Read); copies by induction over documents |
| C81 | Closures | evaluation with fuel; monotone in the fuel; a logical relation "same up to unused captured names" (Spec/Closures) is preserved by evaluation, by induction on the fuel; strong induction for the recursive example |
| C82 | Merge, Flow, Eval | relation "same up to the order of fields" (Spec/Reorder) preserved by every step of the flow, the expressions, the clean-up and the encoder; induction over fuel, passes, stubs and expressions; the guarded merge gives up at the two places where the code depends on the iteration order |
| C83 | Crypt | the texts as byte lists, CBC by induction over blocks, hexadecimal digits; specification by block chains and sealed texts (Spec/Crypt) |
| C84 | Convert | relations for numerals, words and collected matches (Spec/Convert), both directions; induction over digits, reads and jobs |
| C85 | YamlText | surroundings of a scalar (Spec/YamlText: NextLine, Remains); relations between values and their written forms, the writer is in the relation (induction over the value), the reader inverts it (induction over the relation) |
| C86 | YamlParse, YamlScan, YamlKeys, YamlReadable, YamlLayout, YamlMarshal | events of nested lists and maps (Spec/YamlLayout: NodeEvents, documentEvents); the emitter, the scanner and the parser are state machines, related by induction over the events: the text of a node leads the scanner from one state to the next one, adding the tokens of the node; these tokens are parsed as the events; composed with C74 |
| C87 | Json, JsonScan, JsonTokens, JsonParse, JsonMore | Spec/Json: JsonWritable; the text is described by a tree (words, strings, arrays, objects); each string is read back by induction over its characters; the text of a tree leads the scanner from state to state adding its tokens (invariant: the pending simple key belongs to the last value); the tokens are parsed as the events of the tree; composed with C73 |
| C88 | YamlBytes | Spec/YamlBytes: UTF-8 after RFC 3629, with division; decoding of pieces is reduced to decoding of the whole by showing that the result for a complete character does not depend on what follows; then induction over the characters |
| C89 | Pipeline | Spec/Pipeline (`Inert`), Spec/Command (`TextOf`, `DocsOf`); the parameters of Model/Command are instantiated with the models of reader, writer and flow; decoded documents carry no annotations (Props/Fresh), so processing, clean-up and unescaping leave them alone; reading the printed text yields the same content, and the text depends on the content only |
| C90 | Pipeline | Spec/Override (`merge`), Spec/Pipeline (`effective`, `nodeOf`); processing of plain documents (C02) made uniform in fuel and environment; conditions on scalars, names and lengths are shown to pass from the inputs to the override (`DocAll`), so every processed stub and document is again plain; clean-up, unescaping and printing as for C89 |
| C91 | Library | Spec/Library (`Prepares`, `Applies`, `CascadeResult`, `Streams`); calls as transitions of a world of contexts, tag maps and arrays (slices of C59); invariance of settings and tags under histories; the library and the command compared step by step |
| C92 | Template | Spec/Template (`templateBody`, `TField`, `IsTemplateMarker`, `IsTemplateUse`); one pass over maps with markers, instances by the merge theorem at any path (C02), whole documents by following the three passes |
| C93 | TextFns | composition: as_yaml with C86, as_json with C87, bytes with C88, parse and read with C80; a byte-level reader equal to the text-level one for all texts (injectivity of UTF-8) |
| C94 | Spec/Sheet, Props/Sheet to SheetEnd, SheetExample | value of a cell defined by the number of reference steps; invariant of a pass: a pending expression has the same value by the same number of steps, known values stay; each pass knows the values of one more step; a fixpoint knows all; circular expressions reach a normal form one pass later |
| C95 | Spec/Sheet (merged, FitsAll), Props/SheetPass to SheetExample | the proof of C94 with stubs: cells carry the value of the stub for their path; invariant: once evaluated, a cell holds the value of the stub; overriding again changes nothing |
| C96 | Props/SheetText | composition: reading (C88), prepared stubs (C90), processing (C95), one-document and all-document lemmas of the command, printing and reading back (C89); failing case: without a state file no document changes files, the first failing document ends the run |
| C97 | Props/SheetGrammar | the parse relation of C72 is total and functional, hence a parser usable in the flow (`grammarParse`, the hypothesis-free instance of the parser parameter of C94 to C96); the printed text parses to the regrouped expression (C73), whose meaning is that of the original by induction over the meaning relation |
| C98 | Model/Passwd, Spec/Passwd, Props/Passwd | the loops with their bit operations against a specification by digits of numbers to the bases 256 and 64: invariant of the bit buffer, uniqueness of digits; the rounds as a sequence of states; splitting at dollar signs |
| C99 | Model/LibText, Spec/LibText, Props/LibText | composition of the steps with the theorems about documents, cascades and runs; uniqueness of the results; splitting at line breaks |
| C100 | Model/WgKeys, Spec/WgKeys, Props/WgKeys | bits of numbers to the base 256 against the byte operations; base64 as digits to the base 64, uniqueness of digits; bounds of decoded bytes |
| C101 | Model/SemVer, Spec/SemVer, Props/SemVer | induction over constraints and over the values sorted; composition of the setters under the laws of the package |
| C102 | Model/Certs, Spec/Certs, Props/Certs | the steps inverted one by one; induction over usages and hosts; bits compared by testBit |
| C103 | Model/PubKeys, Spec/PubKeys, Props/PubKeys | case distinction over kinds of texts and keys; round trip under the laws of the packages |
| C104 | Model/Match, Spec/Match, Props/Match | case distinction over the arguments under the laws of the package regexp |
| C105 | Model/Url, Spec/Url, Props/Url | lookups in the result, induction over the query |
| C106 | Model/Url, Spec/Url, Props/Url | case distinction over the arguments under the law of the package |
| C107 | Model/Checks, Spec/Checks, Props/Checks | the evaluation of conditions (C45) instantiated; case distinction over the validators |
| C108 | Model/Format, Spec/Format, Props/Format | induction over the arguments |
| C109 | Model/Equals, Spec/Equals, Spec/Agree, Props/Equals | structural induction, by the generic argument of C16 |

All listed properties are expressible in the model.

## Where the code disagrees with the natural property
Each of these is proved as a theorem about the model and named in the manifest: a document
with NaN is processed forever (C07); a preferred scalar is overridden in the next pass (C06); state
below unmarked nodes is lost (C11); escapes of a root string or of root keys are kept, keys collide (C13);
a leading quote in interpolated text (C14); list indices below -len panic (C15); diff of a document
with itself is not empty, differences missed, crash (C17); timestamps lose their text (C18); tags with
names like documents or colons are lost (C19, C60); stale documents after a stream reset (C21); temporary files leak with
an outer binding (C22); feature settings leak between contexts (C25); address subtraction by multiples
of 256 (C26); IPv6 network sizes (C58); asymmetric equality and floats (C28); nil slices in intersect (C30); join of nothing
panics (C33); extreme ranges (C35); deepmerge not associative (C37); mapping with a parameterless lambda
panics (C39); currying of variadic lambdas, frozen defaults (C40); `//` with an unresolved reference (C41);
parentheses are lost in partial output (C66); `if` needs both branches, non-lambda match (C42); empty ranges panic (C43); failed registrations leave effects (C44);
`or` with one condition accepts (C45); sync revived or never timed out (C46); -D order (C47); state lost after a
crash (C48); hidden references (C49); keys like indices, with colons, `key:` order (C50); partially undefined maps, list
expansion of unresolved arguments (C56); exec cache confusion (C57); sort, reverse and repeated
concatenation change other lists (C59); integer literals beyond 64 bits crash the parser (C62); the texts of merges with
options, slices, half open ranges, sync, projections and some strings and indices mean something else or nothing (C63);
empty documents are missing in JSON output, environment features cannot be disabled, 
empty selections crash (C67); failing runs update the state (C68); missing documents and doubly used standard input (C69); projections of unresolved
lists and with unresolved indices (C70); long labels in DNS domains (C71); nested anchors, quoted nulls,
aliases directly after their anchors (C72); ignored tags, octal numbers, double signs (C73); integral floating point numbers
and null words as documents (C74); undefined contents, maps as document streams and non-base64 texts written as success, order of options (C75);
executable tag and home directory in archives (C76); mkdir with components (C77); list output of exec, pipe without arguments (C78); names with `=` (C79);
read without arguments, markers of templates (C80); parameters of callers capture names, curried recursive functions (C81);
`key:name` beside `name` and `<<!x` beside `<<x` depend on Go's random map order (C82). Only the first 16 bytes of a
password are used for encryption, a password beside a method is ignored, 16 hexadecimal digits make `decrypt` panic, and
`hash(x,"md4")` shows `x` (C83). `string()` and
`rand(-9223372036854775808)` panic, `integer(true)` is no integer for other operations, `abs` of the smallest integer is negative,
`rand([])` is nil (C84). JSON output is not always readable by the program itself: U+0085 in a string is read as a space, U+007F is rejected, and the output for several documents has no separators (C87).
UTF-16 input with a byte order mark is recognised, but only its first character is seen, because the end of the buffer is moved by the width in the input; the big endian form is decoded in little endian order (C88).
`Cascade` (and `PrepareStubs`) overwrite the caller's slice of stubs with the processed stubs, so using it again with other values yields stale results; `SetTag` panics on every context unless `CleanupTags` was called on it or the context it is derived from (C91).
- `yaml.Equals` ignores the annotations of nil nodes (theorem `equals_nil`) (C109).
- `format` accepts a list, a map or a lambda as format (theorem `format_fails`), and ends the whole program if a value has no YAML text (theorem `format_ends`) (C108).
- `validate` with `publickey` accepts DSA keys, for which `x509publickey` panics (theorem `dsa_accepted`) (C107).
- `match(p, ~)` does not check that `p` is a regular expression, nor a third argument (theorem `match_nil`) (C104).
- `x509publickey` panics for DSA keys and for certificates with keys that are neither RSA nor ECDSA (theorem `publickey_panics`); `x509genkey("")` asks for an RSA key of 0 bits (constructor `KeyRequest.empty`) (C103).
- `x509parsecert` shows `hosts` only if the certificate has a name (the condition adds the number of names twice): a certificate for addresses only has none (theorem `hosts_lost`). The usage shown as `ContentCommitment` is not accepted by `x509cert`, which knows it as `commitment` (theorem `shown_usages_accepted`). `x509parsecert` panics for a certificate with a key that is neither RSA nor ECDSA (theorem `x509parsecert_fails`). `organization` and `usage` are documented as required for `x509cert` but are not (C102).
- The result of `semvercmp` is no integer of the expressions (it has Go's type `int`): it is equal to no value and neither less nor greater than any, so `(( semvercmp("1.0.0", "2.0.0") < 0 ))` is false (theorem `semcompare_lost`) (C101).
* A stub value for a field with an expression is only used after the expression has been evaluated: a circular expression stays unresolved although the stub gives its value (C95).
