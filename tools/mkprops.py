# generates ../properties.jsonl
import json, os
P=[]
def p(id,title,statement,quantifier,why,anchors): P.append(dict(id=id,title=title,statement=statement,quantifier=quantifier,why_tests_cant=why,anchors=anchors))

p("C01","Plain documents pass through unchanged",
 "Merging a template that contains no dynaml expression, no merge key and no 'key:' tag with no stubs succeeds and yields exactly the template.",
 "every plain YAML document of any depth/size, any parser and any expression evaluator",
 "documents are unbounded trees; a test only samples shapes",
 ["flow/flow.go:Flow","flow/flow.go:_flow","flow/flow.go:flowMap","flow/flow.go:flowList","flow/environment.go:DefaultEnvironment.Flow"])
p("C02","Merging plain documents is the documented path-wise override",
 "For a plain template and plain stubs, the merge succeeds and its result is the template in which every scalar reachable through maps (and through list entries identified by a unique name) is replaced by the value the stubs define at the same path, and nothing else changes. Range: keys are not of the form [n] or a:b, floats are neither NaN nor -0, lists whose entries are all named have pairwise different string names; outside of it (names changed by the merge itself) addressing may change between passes.",
 "every plain template, every list of plain stubs",
 "trees and stub lists are unbounded; interaction of nested lists, names and repeated passes of the fixpoint loop cannot be sampled exhaustively",
 ["flow/flow.go:_flow","flow/flow.go:flowMap","flow/flow.go:flowList","flow/flow.go:stepName","flow/environment.go:FindInStubs"])
p("C03","Left-most stub that defines a path wins",
 "A lookup of a path in the stubs returns the value of the first stub (in command-line order) that defines the path with a non-implied value; later stubs are consulted only if all earlier ones lack it.",
 "every stub list, every path","stub lists and paths are unbounded",
 ["flow/environment.go:FindInStubs","yaml/find.go:FindR"])
p("C04","No key appears that neither template nor an injecting stub field defines",
 "Processing a map node without merge key yields only keys of the template map and keys of the stub map at the same path whose stub field is marked as inject/default; each such marked field missing in the template is added.",
 "every map node, stub list and expression evaluator","all maps and all expression behaviours must be covered",
 ["flow/flow.go:flowMap","yaml/node.go:NodeFlags.Inject"])
p("C05","Default fields only fill gaps",
 "A stub field marked as default never replaces a value present in the template, whatever the template value is, but is added if the template map lacks the field.",
 "every template leaf, every stub list","the claim is about all values and paths",
 ["flow/flow.go:_flow","flow/flow.go:flowMap","yaml/node.go:NodeFlags.Default"])
p("C06","Merged, preferred and injected values are not overridden by stubs",
 "A value node that is the result of an explicit merge or was injected from a stub keeps its value no matter what the stubs define at its path; the value of a preferred expression is taken in the pass that evaluates it, but in the following pass a scalar value it produced is overridden by a stub value (the preference is not kept).",
 "every node, every stub list, every evaluator","must hold for every stub content",
 ["flow/flow.go:_flow","yaml/node.go:Annotation.StandardOverride"])
p("C07","A successful merge result is a fixpoint",
 "If processing ends, the returned document is unchanged by one more processing pass with the same stubs; every single pass terminates; the loop may run forever (e.g. on a document containing a NaN).",
 "every document, stub list, evaluator and number of passes","the number of passes is unbounded",
 ["flow/environment.go:DefaultEnvironment.Flow"])
p("C08","Success if and only if nothing is left unresolved",
 "Processing reports success exactly if no node of the resulting document (at any depth of maps and lists) holds an unevaluated expression, an unparseable dynaml string, or a failed node; otherwise every such node is reported with its path. Exception: with interpolation enabled, strings with embedded expressions that cannot be parsed are returned unchanged and not reported.",
 "every resulting document","documents are unbounded trees",
 ["flow/environment.go:DefaultEnvironment.Flow","dynaml/unresolved_check.go:FindUnresolvedNodes"])
p("C09","Stub cascade order",
 "Stubs are processed right to left, each against exactly the already processed stubs to its right; the template is processed against all processed stubs; the first failing stub (from the right) aborts the whole merge unless partial mode is set, in which case all stubs are processed.",
 "every number of stubs and every per-document flow behaviour","number of stubs is unbounded",
 ["flow/cascade.go:PrepareStubs","flow/cascade.go:Apply","flow/cascade.go:Cascade"])
p("C10","Temporary and local nodes never reach the output",
 "The final document contains no node below the root marked temporary or local at any depth, and every other node all of whose ancestors are kept is kept with its value; processed stubs only lose local nodes.",
 "every document","trees are unbounded",
 ["flow/cascade.go:discardTemporary","flow/cascade.go:discardLocal","flow/cascade.go:Cleanup"])
p("C11","State extraction keeps exactly the state nodes",
 "The state document consists of exactly those descendants of the document whose outermost node below the root is marked as state (with unchanged values); a state mark below an unmarked node has no effect.",
 "every document","trees are unbounded",
 ["flow/cascade.go:DetermineState","flow/cascade.go:DiscardNonState"])
p("C12","Discarding passes are idempotent and commute",
 "Discarding temporary/local nodes or tags twice equals doing it once, and the order of discarding local and temporary nodes is irrelevant.",
 "every document","trees are unbounded",["flow/cascade.go:Cleanup","flow/cascade.go:discardTags"])
p("C13","Escaped dynaml is never evaluated and loses exactly one escape level",
 "A string ((!X)) is not treated as an expression for any X and is emitted as ((X)); strings that are not of the form ((...)) are emitted unchanged; an n-fold escaped expression needs n merges until it is evaluated. The same holds for the merge keys << and <<< used as map keys below the root: <<!X is emitted as <<X and <<<!X as <<<X, every other key is emitted unchanged and all fields keep their (unescaped) content if no two keys collide; the keys <<<! and <<!< do collide and the result then depends on the iteration order (defect).",
 "every string","strings are unbounded",
 ["yaml/node.go:EmbeddedDynaml","yaml/node.go:UnescapeDynaml"])
p("C14","String interpolation keeps literal text and expression order",
 "With interpolation enabled a string without (( is left unchanged and not converted; a converted string is the space separated sequence of the JSON-quoted literal parts and parenthesized expressions in source order with no text lost; a string composed of literal text and expressions with balanced parentheses and quotes is split exactly at the expressions (exception: a quote directly behind an opening double parenthesis is not recognized as quote).",
 "every string","strings and nesting of parentheses/quotes are unbounded",
 ["yaml/interpolation.go:convertToExpression","yaml/interpolation.go:addExpr"])
p("C15","Path lookup semantics",
 "A path is found iff every step selects an existing map field, an existing list index (negative from the end) or the first list entry whose key field has the given name; lookup of a concatenated path equals stepwise lookup; lookup never fails other than by 'not found', except that an index below minus the list length crashes.",
 "every document and path","trees, paths and indices are unbounded",
 ["yaml/find.go:FindR","yaml/find.go:nextStep","yaml/find.go:stepThroughList"])
p("C16","Node equivalence is an equivalence relation on content",
 "Two nodes are equivalent iff they have the same content irrespective of map order and annotations; the relation is symmetric and transitive, and reflexive for documents without NaN.",
 "every pair/triple of nodes","trees are unbounded",["yaml/node.go:EquivalentToNode"])
p("C17","Diff reports no differences iff documents agree",
 "Comparing two documents yields an empty difference list exactly if they are the same: equal scalars, maps with the same fields, lists equal entry by entry, where lists of named maps may be reordered and a list of named maps in the second document may stand for a map. This holds if the names within each list of the first document are different (otherwise a document may differ from itself, and differences may be missed). Top level lists 'jobs' are compared in order, ignoring the attribute index; the comparison crashes exactly if one of these jobs has no name.",
 "every pair of documents","trees are unbounded",["compare/compare.go:Compare"])
p("C18","Reading and normalizing YAML data are inverse",
 "Data as JSON knows it is read without error and writing it again yields exactly the same data; any other readable data comes back as the same data up to number width and Go map types. Reading fails iff a map has a non-string key or a value has an unsupported type somewhere, writing fails iff an unresolved expression is left somewhere. Writing a document without expressions, templates and lambdas and reading it again yields the same content. Exception: a timestamp is read as a text that does not contain the time.",
 "every parsed data tree","trees are unbounded",["yaml/parser.go:Sanitize","yaml/marshal.go:Normalize"])
p("C19","A tag denotes one node at one path",
 "Setting a tag (outside of the doc. name space) succeeds iff the tag is unknown or was set in the same document at the same path; on success the tag resolves to the node set (tag annotations removed), on failure all tags are unchanged; a tag of a finished document is never changed by further processing; colon and dot are the same separator. Exceptions: a tag doc.x with x no number is accepted but never found, and tags predefined by the API with a colon in their name are never found.",
 "every sequence of tag operations","histories are unbounded",
 ["flow/state.go:SetTag","flow/state.go:GetTag","flow/state.go:PushDocument"])
p("C20","Stream reset drops exactly the stream-scoped tags",
 "After resetting the stream no stream-scoped tag is found, all global tags are kept, and the document numbering restarts with 1.",
 "every history of tag operations","histories are unbounded",["flow/state.go:ResetStream"])
p("C21","Document history addressing",
 "As long as the stream is not reset: after n documents were pushed, doc.i (1<=i<=n) denotes the i-th document and doc.-k (1<=k<=n) the k-th last one; doc.0 and all other indices are not found. After a stream reset the numbering restarts, but the old documents are kept and are not replaced by new ones of the same number.",
 "every history of documents, every index","histories are unbounded",["flow/state.go:GetTag","flow/state.go:PushDocument"])
p("C22","Temporary files are shared per content and removed at the end",
 "Requesting a temp file twice for the same content yields the same name, for contents with different hashes different names; the file keeps the content requested; a processing without outer binding leaves no temp file behind and changes no other file (with an outer binding, as always used by the library, no temp file is removed); without file access nothing is created.",
 "every sequence of requests","histories are unbounded",["flow/state.go:GetTempName","flow/state.go:Cleanup"])
p("C23","File content cache is coherent",
 "After any history of reads and file changes, a cached read yields the content of the last real successful read of this file (the present content if there was none), an uncached read always yields the present content, and reading one file never changes what is returned for others.",
 "every history of reads and external file changes","histories are unbounded",["flow/state.go:GetFileContent"])
p("C24","Sandboxed execution modes",
 "For any sequence of context configuration calls, OS operations are allowed iff the mode set last (default: all) allows them and at all times since then the file system was the one of the operating system; file operations are allowed iff the mode set last allows them; no call changes mode, file system or registries of an existing context.",
 "every sequence of With... calls","sequences are unbounded",["spiffing/spiff.go:WithMode","spiffing/spiff.go:WithFileSystem","flow/state.go:NewState"])
p("C25","Feature switches",
 "After any sequence of feature settings a known feature is enabled iff the last setting concerning it enabled it ('no' prefix inverts; unchanged without a setting); exactly the known names, possibly with prefix 'no', are accepted, others are rejected without effect; contexts created independently do not influence each other. Exception: a feature setting for a derived context also changes the context it is derived from and all its relatives.",
 "every sequence of settings","sequences are unbounded",["features/features.go:Set"])
p("C26","IP address arithmetic",
 "Adding a non-negative integer, or a negative one above -256, to an address gives the address whose number is the sum (modulo the size of the address space; IPv4 addresses are kept in 16 byte form); the difference of two addresses is the difference of their numbers; a + (b-a) = b for a <= b. For larger negative offsets the result is right if no inner byte of the result is 0, and may be wrong otherwise (10.0.1.0 - 256 is 9.255.255.0).",
 "every address and offset","2^32 addresses times all offsets",["dynaml/addition.go:IPAdd","dynaml/ip.go:DiffIP"])
p("C27","Integer arithmetic",
 "Integer +,-,* are computed modulo 2^64 in two's complement (exact whenever the result fits); / and % satisfy a = (a/b)*b + a%b with truncation towards zero (-2^63 / -1 wraps to -2^63), division by zero is always reported as an error, never a crash; a CIDR divided by n>0 yields the first of the at least n equally sized subnets with the fewest possible additional prefix bits, n<=0 is an error, CIDR multiplied by n>=0 moves to the n-th following network, IP +/- int and IP - IP agree with the address arithmetic. (Defect recorded: CIDR times a negative number is wrong.)",
 "every pair of 64 bit integers","2^128 pairs",["dynaml/addition.go","dynaml/subtraction.go","dynaml/multiplication.go","dynaml/division.go","dynaml/modulo.go"])
p("C28","Equality comparison of values",
 "a == b is the documented loose structural comparison: nil and scalars by value with conversions to the type of the left operand, lists elementwise, maps by fields (order irrelevant), != is its negation; a value without float leaves is equal to itself and to every value of the same content. Exceptions of the code: floats are never equal, equality across types is not symmetric, and the ordering operators are false for operands that are neither numbers, strings nor the like.",
 "every pair of values","trees are unbounded",["dynaml/comparison.go:compareEquals"])
p("C29","Boolean operators",
 "-and / -or / ! follow the truth tables over the documented truthiness (nil, false, 0, empty string, empty list/map are false), the second operand being irrelevant (not even evaluated) if a first operand that is no integer decides; two integers are combined bitwise, so with an integer as first operand there is no short circuit.",
 "every pair of operand values","all values",["dynaml/log_and.go","dynaml/log_or.go","dynaml/not.go"])
p("C30","uniq / intersect / compact / contains behave like set operations",
 "uniq keeps exactly the first occurrence of every value in order and leaves no two equal values; intersect keeps exactly the entries of the first list found in all other lists, in order; contains(l,x) holds iff index(l,x)>=0, index is the smallest and lastindex the largest matching position; compact drops exactly the nil and empty string/list/map entries (false and 0 are kept), keeping order. Exception of the code: a nil slice as first list (result of compact/uniq of nothing) is treated as missing by intersect.",
 "every list","lists are unbounded",["dynaml/uniq.go","dynaml/intersect.go","dynaml/compact.go","dynaml/contains.go","dynaml/index.go"])
p("C31","sort yields an ordered permutation",
 "sort returns an ordered permutation of its argument for string lists and for integer lists, or with a consistent comparison function; mixed lists are rejected.",
 "every list","lists are unbounded",["dynaml/sort.go"])
p("C32","reverse is an involution",
 "reverse returns the elements in opposite order; applying it twice yields the original list.",
 "every list","lists are unbounded",["dynaml/sort.go:func_reverse"])
p("C33","split and join are inverse",
 "join with separator s of the result of split with s (any limit but 0) is the original string; without limit the parts do not contain the non-empty s; a split limited to n>0 yields at most n parts of which only the last one of exactly n may contain s; limit 0 yields nothing; splitting by a length yields pieces of that length (the last possibly shorter). Recorded defect: join of only nil arguments crashes.",
 "every string and non-empty separator","strings are unbounded",["dynaml/split.go","dynaml/join.go"])
p("C34","substr, slices and element never crash and select exactly the addressed range",
 "For every string/list and every (negative) start/end, substr and slice expressions either report an error or return exactly the elements from start to end; element(list, i) returns exactly the i-th element for 0 <= i < length and element(map, key) exactly the field, and both report an error otherwise.",
 "every string/list and every pair of integers","unbounded",["dynaml/substr.go","dynaml/slice.go"])
p("C35","Range expressions",
 "[a..b] lists all integers from a to b inclusively, ascending if a<=b and descending otherwise, for all 64 bit bounds except the extreme ones: counting up to 2^63-1 or down to -2^63+1 never ends, and counting down to -2^63 gives the empty list.",
 "every pair of 64 bit integers","2^128 pairs",["dynaml/range.go"])
p("C36","list_to_map / keys / makemap",
 "list_to_map yields a map with exactly the key field values as keys and for every key the last entry with that key, without the key field, as value; entries without string key are rejected; keys returns every key exactly once in sorted order; makemap maps every given key to the last value given for it.",
 "every list/map","unbounded",["dynaml/list_to_map.go","dynaml/keys.go","dynaml/makemap.go"])
p("C37","Map merging functions",
 "merge/concatenation of maps: the result has exactly the union of the keys, the right-most definition of a field wins (deep merge: recursively where both are maps), independent of map iteration order; the empty map is a unit. (Deep merge is not associative: a map, a scalar and a map for the same field.)",
 "every sequence of maps","trees are unbounded",["dynaml/deepmerge.go","dynaml/concatenation.go","dynaml/mapmerge.go"])
p("C38","base64 line wrapping keeps the content",
 "Encoding with a line length wraps lines to exactly that length (the last possibly shorter), the concatenation of the lines is the unwrapped encoding, and decoding the (wrapped) encoding restores the original bytes.",
 "every content, every line length","unbounded",["dynaml/base64.go"])
p("C39","Mapping, filtering and summing are deterministic and total over the input",
 "map, select, filter and sum visit lists in order and maps in ascending key order, once per entry, independent of the map iteration order; map[] yields the non-nil, defined results in this order, map{} stores them under the key (lists: the string element, last one wins), select/filter keep exactly the entries whose condition is true, unchanged, and sum is the fold from the initial value. The first entry whose lambda call fails (or whose result cannot be stored) fails the expression, the first one not yet evaluable postpones it. Unsupported source types and parameter counts are rejected; only a lambda with no parameter (sum over a map: fewer than two) crashes (defect).",
 "every list/map, every lambda behaviour","unbounded inputs and lambdas",["dynaml/mapping.go","dynaml/select.go","dynaml/filter.go","dynaml/sum.go"])
p("C40","Lambda argument binding and currying",
 "Calling a lambda binds positional arguments left to right, named arguments to the parameter with this name or (1-based) index, the variadic parameter to the list of the remaining arguments, missing parameters to the values their default expressions have in the scope of the lambda expression, and all other names to the static scope; a call is accepted exactly if there are not too many arguments, named arguments meet free parameters once, and nothing without default is missing. Partial application followed by the remaining arguments equals the full call, except that a variadic lambda curried with at least as many arguments as parameters rejects further arguments (defect). A call with too few arguments is curried automatically iff the lambda is not variadic, has no default for its last parameter and no named arguments are used. Defect: default values are fixed by the first evaluation of the lambda expression.",
 "every parameter and argument list","unbounded",["dynaml/lambda.go"])
p("C41","Alternatives a || b and a // b",
 "a || b is the outcome of a if a has a defined value (b then has no influence, even if it fails or crashes), is kept unevaluated as long as a is undecided, and is otherwise (a fails or is undefined) the outcome of b; || is associative. a // b falls through to b also if a is nil. Disagreement with the expected behaviour that is proved too: with an undecided reference a, a // b fails instead of being kept, so (a // b) || c yields c although a may get a value later.",
 "every pair of expressions","all expressions",["dynaml/or.go","dynaml/validor.go"])
p("C42","Control maps: recognition, if, switch, type, merge",
 "A map with exactly one control key (<<name) and otherwise only options of that control and regular fields is that control; a map without control keys is none; every other map with control keys is rejected. Once value and all options and fields are resolved, if yields then for true, else for false or nil (or nothing if absent), other conditions are errors, as are regular fields; switch yields the value of the first case that applies (equal to case, lambda in match true), else the default, else an error; malformed cases are errors; type selects by type name, merge overlays the maps in order. Exceptions (proved): both branches of if have to be resolved; a match which is no lambda always applies; a control key added by injection that makes the map malformed crashes.",
 "every control node","all maps",["dynaml/control/if.go","dynaml/control/switch.go","dynaml/control.go"])
p("C43","The for control iterates the cartesian product in order",
 "for evaluates the body exactly once for each combination of the ranges, in lexicographic order, and terminates; list ranges in order with indices, map ranges in sorted key order; variables given as map (key: name, or index and name) are nested in ascending order of names (independent of map order), as list (fields name, values, index) in the given order; the index is bound to index-<name> if no name is given for it. The result is the list of the defined body values or, with mapkey, the map in which the last combination with a key wins. Exceptions (proved): an empty range crashes; a constant body ignores nil keys.",
 "every number of ranges of any length","unbounded",["dynaml/control/for.go"])
p("C44","Registry layering",
 "A function lookup in a registry yields the function registered there last, else the one registered last in the default registry, independent of other registries; a context uses the function registry configured last only. A registered control stays what it is, whatever is registered later; a successful registration makes exactly the control and its options known; it fails if the name is used or an option is a control. Exceptions: a failed registration may leave the control registered; the conflict of normal and template options is detected in one order only.",
 "every sequence of registrations","unbounded histories",["dynaml/registry.go","dynaml/call.go","dynaml/control.go"])
p("C45","Validators form a boolean logic",
 "For every condition tree over elementary conditions the verdict is the boolean combination of the elementary verdicts: and accepts iff all conditions accept, or iff one accepts, not and a leading ! invert, list/map validators accept iff all entries are accepted, field validators check the field; and stops at the first rejecting condition; acceptance of a map does not depend on the entry order; check is true iff all conditions accept, and exactly then validate yields the value. The order conditions compare the value with the argument, type tests the type name, empty accepts the empty strings, lists and maps, value and valueset test equality. Exception: an or with a single condition accepts a value the condition rejects.",
 "every value and condition tree","trees are unbounded",["dynaml/validate.go"])
p("C46","sync waits until the condition holds or the timeout expires",
 "sync yields its value once the condition is true, keeps retrying exactly while the condition is false and the waiting time (default 5 minutes) since the start of the first non-failing evaluation has not elapsed, and fails afterwards; with an advancing clock the number of retries is bounded. Exceptions: a sync that reported its timeout can still yield a value in a later pass; waiting times beyond 292 years overflow; a retry with an unchanged clock reading is not noticed by the processing loop.",
 "every schedule of evaluations and clock readings","schedules are unbounded",["dynaml/sync.go"])
p("C47","Command line value definitions",
 "Definitions are accepted iff each has exactly one '=' and a non-empty name, the last definition of a name wins, integers are recognized. Each -D path=value definition is found at its path in the resulting binding, for any number of definitions and in any processing order, unrelated paths are not influenced, escaped dots are part of the field name and every path has a name; a definition is rejected iff an inner field of its path exists and is no map. Exception: if one definition denotes a field of another one, the outcome depends on the map iteration order.",
 "every list of definitions","unbounded",["cmd/merge.go:createValuesFromArgs","cmd/merge.go:addValue"])
p("C48","State file update never loses the old state",
 "At every crash or failure point of a state update (with successful rename of the old file) the complete old state is in the state file or its backup and no other file is changed; a complete update leaves the new state with the old one as backup; a failed write leaves the old state. Not guaranteed: an update after an interrupted one replaces the backup by the incomplete state, and if the rename fails, a failing write destroys the old state.",
 "every crash/failure point","fault schedules",["cmd/merge.go:merge"])
p("C49","Lexical scoping of references",
 "A reference a.b... denotes the path b... below the field a of the innermost visible scope that has a field a (local scopes, then the enclosing maps of the document from the inside out, then the scopes of outer bindings); it is missing if no visible scope has a field a. Scopes outside the one that has the field never influence the result, and there is no fallback to them if the rest of the path is missing. __ctx is never hidden; __.a skips local scopes; ___ denotes the root of the outermost binding; absolute references start at the document root independent of the scopes entered.",
 "every nesting of scopes","unbounded nesting",["flow/environment.go:resolveSymbol","flow/environment.go:FindReference"])
p("C50","List merging inserts exactly the stub entries whose key is not present, in stub order",
 "A merge insertion in a list (<<: (( merge )) or - <<: (( merge ))) whose path has a list in the stub inserts, at its position and in the order of the stub list, exactly those stub entries whose key field (name, or the chosen key) is not already used by an entry of the list itself (for keys that are not of the form [n] and contain no colon); stub entries without a key are always inserted, with replace only the inserted entries remain, and the insertion never introduces a second entry with a key already present. A field written key:name in the entries makes name the key and is stored under its plain name. Keys like [0] are dropped and keys with a colon are duplicated (defects).",
 "every pair of lists","unbounded",["flow/flow.go:newEntries","flow/flow.go:ProcessKeyTag"])
p("C51","static_ips and ip ranges",
 "static_ips / ipset return only addresses of the given ranges, as many as requested, pairwise distinct for distinct indices, or fail.",
 "every range list and index list","unbounded",["dynaml/static_ips.go","dynaml/ipset.go"])
p("C52","Evaluation info accumulation",
 "Combining the side information of any sequence of operands keeps errors, failures, undefined, merged and preferred marks, flags and clean-up handlers of all operands; the last given redirect path, key name and issue win; the replace mark is that of the last operand, source name and raw mark those of the first. The result does not depend on the grouping, and the default information is neutral up to the replace mark (right) and source/raw (left). Cleaning up calls every handler once, in order, and reports the last error.",
 "every combination sequence","unbounded sequences",["dynaml/expression.go:EvaluationInfo.Join"])
p("C53","Node flags algebra",
 "Adding flags is monotone, idempotent, commutative and associative; a default field counts as inject field until the inject flag is set explicitly; a default field that is overridden becomes a plain inject field with all other flags kept, any other field keeps its flags; overriding is idempotent.",
 "every flag combination","all bit patterns",["yaml/node.go:NodeFlags"])
p("C54","replace functions",
 "replace(s,a,b,n) replaces exactly the first n (all if negative) non-overlapping occurrences of a non-empty a left to right; n=0 changes nothing; an empty a matches before every character and at the end; a substitution function with a constant result acts like that string.",
 "every string, pattern, count","strings unbounded",["dynaml/replace.go"])
p("C55","Merge expression redirection",
 "merge yields the value of the first stub that has a (non-implied) value at the path of the merge (the stub path or the given one), with its source and flags, marked as merged, redirected and replaced as requested; it fails iff no stub has such a value; merge none yields nil; it does not depend on the document. A node given by a merge takes this value, and no later pass changes it at any depth; without a stub value the expression is kept and marked with an error.",
 "every environment","all stub lists/paths",["dynaml/merge.go"])
p("C56","Delayed evaluation of expressions does not change their result",
 "For ordinary expressions (no undefined values, list expansion, //, dynamic references, intrinsic functions) evaluated while parts of the document are undecided: a value found early is the value in every later state and an early failure stays a failure; the remaining expression is equivalent to the original one in every later state; so evaluation in any number of passes agrees with one evaluation at the end; and an expression is left only if one of its references is undecided (expressions without local scopes, slices and qualified expressions). Exceptions that are proved too: {k = [~~, x]} || y and [x...] || y select y as long as x is undecided.",
 "every ordinary expression, every sequence of document states, any number of passes","unbounded expressions and schedules",["dynaml/*.go:Evaluate"])
p("C57","Exec cache identity",
 "A cached command execution is run iff no earlier cached execution with the same concatenation of input, command and arguments produced output; otherwise the first such output is returned; executions with another concatenation have no influence. (So calls with the same concatenation but different argument boundaries are confused, and the output of a failed command is returned as success later.)",
 "every history of executions","histories unbounded",["dynaml/exec.go"])
p("C58","CIDR functions",
 "min_ip/max_ip of a network are the addresses with all host bits cleared/set, num_ip is the number of addresses between them for IPv4 (it is 0 for IPv6 networks with more than 32 network bits), and contains_ip holds iff the address lies between them.",
 "every network and address","2^32 addresses times all prefix lengths",["dynaml/ip.go"])
p("C60","Resolution of tagged references",
 "A reference tag::path denotes the path in the tag with this name or a name below it (name plus dotted suffix) that provides the path: the tag of exactly this name if it provides the path, otherwise the one with the fewest name components, which must be unique (else the reference is ambiguous and fails); tag::. denotes the tag of this name (spelled with dots; spelled with colons it is rejected as ambiguous if there are tags below it) or the only tag below it.",
 "every set of tags, every name and path","unbounded histories and tag sets",["dynaml/reference.go:Evaluate","flow/state.go:GetTags"])
p("C59","Lists behave as values unless an operation is applied twice to the same first list",
 "In every history of list creations and list concatenations in which no list is the first operand of more than one concatenation, every list keeps exactly the elements it has under value semantics, whatever spare capacities the run time system chooses. A single concatenation always delivers the elements of the first list followed by the added ones and never changes its operands. sort and reverse deliver the rearranged elements, but rearrange the argument and every list sharing its elements (defect), and two concatenations with the same first list of three document elements overwrite each other's added element (defect).",
 "all element types, all histories of creations/concatenations of any length, all capacities and growth strategies","sharing of slice memory depends on the history of appends and on capacities chosen by the run time system; tests see single histories",["dynaml/concatenation.go: ConcatenationExpr.Evaluate","dynaml/sort.go: func_sort","dynaml/reverse.go: func_reverse"])

p("C61","The expression parser terminates on every text and is deterministic",
 "For every text the recursive descent parser of dynaml expressions terminates with exactly one outcome (an expression, a syntax error or a crash); it terminates for every rule of the grammar, started anywhere. If it accepts, it has consumed the complete text.",
 "all texts, all 107 rules of the grammar","left recursion or a loop over an empty match would need a special text; tests see finitely many texts",["dynaml/dynaml.peg","dynaml/dynaml.peg.go:Parse","dynaml/parser.go:Parse"])
p("C62","The parser respects precedence, associativity and grouping, and crashes only on unconvertible numbers",
 "Every expression the parser delivers is well formed: every operator has its number of operands, the left operand of a binary operator is (unless parenthesised) of the same or higher precedence, the right one of higher precedence, anywhere in the expression; lists, calls, maps, scopes, lambdas and mappings have operands of the required kind. The construction of the expression from the parse result never fails internally; the parser crashes only if the text contains a number literal that cannot be converted, which are exactly the integers outside the 64 bit range and the literals with fraction or exponent that the library rejects; such a number in an accepted text is never silently changed.",
 "all texts and all parsed expressions","the stack discipline between grammar and builder must hold for every combination of constructs",["dynaml/parser.go:buildExpression","dynaml/parser.go:tokenStack"])

p("C63","The text of an expression means the expression",
 "Whatever a printed expression is put into (an unresolved node, a lambda value, a state file), parsing its text again with the same context gives the same expression up to parentheses (the operands of ! and * and of paths on results are printed in parentheses), for expressions of any size built from references, literals, operators, conditionals, lists, maps, ranges, calls and curried calls with named and positional arguments, expansions, indices, paths, mappings, sums, catch, lambda expressions with defaults and variable arguments, lambda references, local scopes and merges, if the operands are of the precedence of their place and the names are words of the language. Stated exceptions, where the text means something else or is no expression: the merge options replace (printed as required), required and none, slices, half open ranges, sync, projections, indices that are a literal number, strings with control characters or ending with a backslash.",
 "all expressions of these forms, all names, numbers, strings and nesting depths","every combination of operators must print with the spaces, brackets and separators that the grammar reads back; there are infinitely many",["dynaml/*.go:String","dynaml/parser.go:Parse","dynaml/dynaml.peg"])

p("C64","The intrinsic functions report exactly what happened to their arguments",
 "defined(a, ...) is true iff all arguments have a value, false iff the first one without a value fails or is undefined, and stays iff the first one without a value is still to be determined. valid(...) is true iff all have a value other than nil, false iff all have one but one of them is nil, or the first one without a value fails. require(a) gives the value of a, fails if there is none or it is nil, and stays if a stays. optional(c, t) is undefined if c fails, is undefined or false, has the outcome of t if c is true, and stays with what is left of c otherwise. catch(a) never fails: it gives a map with valid=true, the value and an empty error, or valid=false and the error message, and stays if a stays. stub(p) gives the value of the path in the stubs (a reference, a string, a list of strings or the path of the current node) and fails if there is none or the argument is no path.",
 "all expressions as arguments, any number of them for defined and valid, all documents and stubs","the outcome depends on the combination of outcomes of arbitrarily many arguments; tests cover a few combinations",["dynaml/defined.go:func_defined,func_valid,func_optional","dynaml/require.go:func_require","dynaml/stub.go:func_stub","dynaml/catch.go:CatchExpr.Evaluate"])
p("C65","References and selections give the designated node or wait",
 "A reference a.b.c gives a value iff every prefix of the path designates a node whose entries can be selected (no expression, no map or list that is still to be merged), and the path designates a node with this value, which must be finished (no expressions inside) unless it is only the root of a selection. It stays as it is iff the first prefix that does not designate such a node designates one that is still to be determined, or the value found is not finished, and it fails iff this prefix designates nothing. (e).a.b and e.[index] follow the path in the value of e in the same way; the index may be a number (for lists, negative ones count from the end), a name, or a list of both; an entry that is not finished makes e.[index] wait, other entries need not be finished. e.[index] fails if the index has another type or the root or index fails and waits if one of them waits.",
 "all paths, all documents (values of any size and depth in any state of resolution), all root and index expressions","the outcome depends on the state of resolution of every node on the way, for paths and documents of any depth",["dynaml/reference.go:ReferenceExpr.Evaluate,find","dynaml/qualified_expression.go:QualifiedExpr.Evaluate","dynaml/dynamic_expression.go:DynamicExpr.Evaluate","dynaml/unresolved_check.go:isResolvedValue,isLocallyResolvedValue"])

p("C66","Partial output can be processed again",
 "What a partial evaluation leaves of an expression is written as (( expression )). If it can be printed without loss (C63), the string is recognised as an expression again, and the expression read evaluates like the one written in every document (the same value, failure, or left for later; expressions with // excepted). For the ordinary expressions of C56 it has, in every later state of the document, the outcome of the original expression: writing partial results and processing them again is the same as processing the complete document at once. What is left of a printable expression without parentheses is always printable. The code violates this for expressions with parentheses: they are dropped by the evaluation, y - (x - 1) with unknown x is written as y - x - 1, which is (y - x) - 1.",
 "all ordinary expressions, all states of the document before and after, all texts","needs printing, parsing and evaluation in two states of the document for every expression",["dynaml/unresolved_check.go:ResetUnresolvedNodes","dynaml/grouped.go:GroupedExpr.Evaluate","yaml/node.go:EmbeddedDynaml","dynaml/parser.go:Parse","cmd/merge.go:merge (--partial)"])

p("C67","The command merge prints every document of the template, processed",
 "A run of merge ends normally exactly if every input can be read, the stubs can be prepared and every document can be shown. The inputs are: the documents of the template, one document per stub file in the given order, followed by the state as last stub (a missing state or bindings file is ignored), the bindings file overlaid by the value definitions, one document per tag definition, and the features of the environment and the options; '-' is the standard input and may be used once; with a state file the template has at most one document. The documents are processed in order; an empty document gives an empty document, a temporary document gives none, any other document is processed, narrowed to the path, used to write the state, replaced by the evaluated expression, reduced to the selected fields (under the last component of the path, the last one of equal names counting), and split into the entries if it is a list and splitting is wanted. A single non-empty YAML document is printed as it is, several or empty ones are preceded by '---', JSON documents are followed by a line feed. Exceptions: empty documents are missing in JSON output; a feature enabled by the environment is not disabled by an option; a selection of a path without components crashes the program.",
 "every set of files, web answers, options and every behaviour of the YAML library and the processing","files, options and document streams are unbounded",["cmd/merge.go:merge","cmd/root.go:ReadFile","yaml/parser.go:ParseMulti","dynaml/tag.go:CheckTagName"])
p("C68","A failing run prints nothing, and only the state file is written",
 "A run which fails prints nothing on standard output. A run changes no file but the state file and its backup. After a normal end the state file holds the state of the shown document and the backup the previous state, and the next run reads it as its last stub with the same content. A run that fails before the state is written, or while it is written, leaves the state file as it was. Exception: a run that fails after the state was written - in the evaluation of an expression, the selection of fields or the conversion to text - has updated the state.",
 "every set of files, options, and every end of the file operations","all points of failure and all file systems",["cmd/merge.go:merge","cmd/merge.go:readYAML"])
p("C69","process and convert are merge",
 "The command process does what merge does with two more stubs in front: one which makes the field document temporary and injected, and one which has the document as this field. The command convert prints the documents of the template without processing them, narrowed, selected and split like merge does, and changes no file; for documents the processing does not change, both commands are the same. Exceptions: a document that cannot be read is processed as empty document; if document and template both are the standard input, the template is empty.",
 "every set of files and options","files, options and document streams are unbounded",["cmd/run.go:run","cmd/convert.go:convert","cmd/merge.go:merge"])
p("C70","A projection applies its chain to every entry",
 "e.[*] followed by a chain (path, index, further projections) yields, for a list (or map) e, the list of the results of the chain for the entries in the order of the list (of the keys); without chain it is the list itself (the values of the map in the order of the keys). It fails iff the chain fails for an entry, e fails, or e is neither list nor map; for a path: iff the path leads nowhere in some entry. Exceptions: a projection of a list that is not yet resolved fails instead of being left for later, so the alternative of || is taken although the list is available later; and if an index in the chain is not yet resolved, all entries become the same expression.",
 "all evaluation states, operand expressions, chains, lists, maps and paths","The combinations of entries, chains and resolution states are unbounded; tests use fully resolved small lists and miss the order dependent results.",["dynaml/projection.go:ProjectionExpr.Evaluate","dynaml/projection.go:projectValue","dynaml/qualified_expression.go:QualifiedExpr.Evaluate","dynaml/dynamic_expression.go:DynamicExpr.Evaluate"])
p("C71","The DNS validators accept exactly the DNS names",
 "The validators dnslabel, dnsdomain, wildcarddnsdomain and dnsname accept a string iff it is: a label (lower case letters, digits and dashes, neither starting nor ending with a dash) of at most 63 characters; labels separated by dots, at most 253 characters; such a domain preceded by *. with at most 253 characters; one of the last two. All other strings are rejected, other values are an error of the condition. Exception with respect to RFC 1123: the labels of a domain may be longer than 63 characters.",
 "all strings and values","The set of strings is infinite; tests sample a few names and cannot exclude accepted non-names.",["dynaml/dns.go:IsDNS1123Label","dynaml/dns.go:IsDNS1123Subdomain","dynaml/dns.go:IsWildcardDNS1123Subdomain","dynaml/validate.go:handleStringType"])
p("C72","Reading YAML: anchors and aliases stand for the data they name",
 "For every stream of at least one document whose anchors are used in the supported way (a node with an anchor contains no other anchor, is not directly followed by an alias and is no quoted word for null), reading gives exactly the documents described: scalars with their meaning (C73), lists in order, maps with one value per key (the last one of equal keys), and for an alias the data of the last node before it with this anchor; an alias without such a node is an error, a collection as key crashes the program. The result is reached after finitely many steps and does not depend on how many more are allowed; a stream is never read as no documents at all. Exceptions: an alias directly after its anchor crashes the program; a node with nested anchors is repeated wrongly, or read for ever; a quoted word for null is read as null if it is the whole document or the target of an alias; anchors of earlier documents remain usable; duplicate keys are accepted.",
 "all event streams of documents of any size and nesting, all anchor names","documents are unbounded in size, depth and number of anchors; the replay of recorded events interacts with every nesting of anchors",["legacy/candiedyaml/decode.go:nextEvent,begin_anchor,end_anchor,alias,valueInterface,parse","yaml/parser.go:ParseMulti"])
p("C73","Reading YAML: what a scalar means",
 "A quoted scalar without tag is its text. A plain scalar without tag is null iff it is empty or ~, null, Null, NULL; a boolean iff it is y, yes, true, on, n, no, false, off in any case; an integer iff it starts with a sign or digit and is, without underscores, an optional sign and a decimal number without leading zero, a binary (0b), octal (0o or leading 0) or hexadecimal (0x) number within 64 bits; a floating point number iff it starts with a sign, digit or dot, is no integer, and is .inf, .nan or a number after the sign; a timestamp iff it starts with a digit, is no number and has the form of a date; and its text otherwise. Every text has exactly one of these meanings. Exceptions: tags other than !binary are ignored, so a quoted text with the tag !!str is a number if it looks like one; 010 is 8; no is false; a second sign is accepted (--5).",
 "all texts, tags and quotings","the set of texts is infinite; tests sample some notations",["legacy/candiedyaml/resolver.go:resolveInterface,resolve_int,resolve_float,resolve_bool"])
p("C74","Writing YAML: a written document is read as the same document",
 "A document consisting of data (null, booleans, 64 bit integers, floating point numbers other than NaN, texts, lists, maps) can be written, and reading the written events - scalars written plain are read by their meaning, all others as texts - gives one document with the same content everywhere, with the new source name and without annotations. A scalar is written without quotes only if the text is printable ASCII without leading or trailing blanks, comment or key separators, indicators or document markers at the begin. Maps are written with their keys in ascending order, independently of the order of the map. Exceptions: floating point numbers without fractional digits are written like integers and read as integers; a document which is only one of the words for null is read as null, although it is written with quotes.",
 "all documents of data of any size and depth, all texts as keys and values, all orders of map entries","the documents and texts are unbounded; a single text that is written plain but read differently breaks the property",["legacy/candiedyaml/encode.go:marshal,emitMap,emitString,emitFloat","legacy/candiedyaml/emitter.go:yaml_emitter_analyze_scalar,yaml_emitter_select_scalar_style","yaml/node.go:MarshalYAML"])
p("C75","write stores exactly the described content",
 "write(file, content[, options]) needs permission for file access and a non-empty file name. It issues exactly one write request: to the name without its leading tags (the characters # and *, ended by a colon or the first other character) and with ~/ replaced by the home directory, with the permissions given by the options (octal with a leading zero, otherwise decimal, default 0644), and with the bytes of the text of the content: texts and scalars as they are, lists and maps as YAML document (with multiyaml a list as document stream), and with the option or tag binary the bytes the base64 text stands for. The result is the text if the write succeeds, an error otherwise. Writing base64 encoded bytes with option binary stores these bytes for every line width. Exceptions: an undefined content, a map with option multiyaml, or a text that is no base64 with option binary are written (as empty file, or as text) and reported as success; blanks before permissions are rejected although they are ignored before other options.",
 "all argument lists, all values, all file systems answers, all bytes","contents, option texts and file names are unbounded; the code decides success by several flags whose combinations tests sample",["dynaml/write.go:func_write,getWriteOptions,getData","dynaml/exec.go:getArg","dynaml/file.go:FilePath"])
p("C76","archive packs exactly the described files",
 "The files of archive(value[, mode]) are: for a list one file per entry, described by the fields path, mode, and data or base64; for a map one file per entry with a value in ascending order of the keys, the key (without tags) being the path unless the entry is a map with a field path, and the content given by the fields of a map or by the text of any other value. Any entry which is not of this form is an error, no entry is skipped. The result is the base64 text of the tar archive (compressed for targz) of these files, in lines of 60 characters. Exceptions: the tag * makes a file executable only if the entry is a map; ~/ is expanded only if the entry is not a map.",
 "all values (lists and maps of any size), all tar implementations","maps and lists are unbounded, and the order of the files depends on the iteration order of maps",["dynaml/archive.go:func_archive,getFileEntry"])
p("C77","Temporary files and directories are created as described",
 "tempfile(content[, options]) uses the bytes and permissions described by content and options as for write, but without tags. mkdir(path[, permissions]) creates exactly one directory, with the permissions (default 0755), whose path is a simple value or, with permissions, a list of components joined by slashes, and which is not empty; the result is the path if it can be created, otherwise it is an error. Exception: a list of components without permissions is always rejected.",
 "all argument lists and file systems answers","argument lists and option texts are unbounded",["dynaml/tempfile.go:func_tempfile","dynaml/mkdir.go:func_mkdir"])
p("C78","exec and pipe call the described command and convert its output",
 "exec needs permission; it calls the command given by a simple value with the texts of all other arguments (lists and maps as YAML) as arguments, the whole command line may also be given as single list. pipe passes the text of its first argument to the standard input of the command given by the others. The result is the parsed output if the output is a YAML map or starts with ---, otherwise the integer it denotes without its trailing line feeds, otherwise this text. Everything else (no permission, unusable arguments, failing commands) is an error. Exceptions: a YAML list as output is text; pipe rejects a command without arguments.",
 "all argument lists, all outputs and all YAML parsers","outputs and argument lists are unbounded",["dynaml/exec.go:func_exec,convertOutput,getArg","dynaml/pipe.go:func_pipe"])
p("C79","lookup, list and env answer exactly what exists",
 "lookup_file/lookup_dir(name, dirs...) need permission, a non-empty name and directories given as strings or lists of strings (undefined entries are ignored); the result is the list of the existing candidates of the wanted kind in the order of the directories, an absolute name being its only candidate; all other inputs are errors. list_files/list_dirs of an existing directory yield exactly its entries of the wanted kind, in the order of the directory. env with exactly one name is the value of this environment variable or an error if it is not set; with no or several names it is a map of exactly those that are set; it is an error for arguments which are no names. Exception: a name with an equals sign is matched within the value of another variable.",
 "all argument lists, directories, file systems and environments","file systems, environments and argument lists are unbounded",["dynaml/lookup.go:func_lookup,checkExistence","dynaml/files.go:func_listFiles","dynaml/env.go:func_env,getenv"])
p("C80","read and parse yield what the mode describes",
 "read(file[, mode]) needs permission and reads the content of the file in the mode, by default yaml for .yml, .yaml and .json files and text otherwise; parse(text[, mode]) reads the text, by default in mode import. The result is exactly the one described by the mode: yaml - the single document, processed; multiyaml - the documents without trailing empty ones, processed as list; import and importmulti - the same without processing; text - the text; binary - the base64 text in lines of 60 characters; template and templates - the documents as templates, to be evaluated as they are, and shown with the same content and a template marker (as field <<< of a map or << if there is already one, as first entry of a list unless it has a marker). A leading dot processes with a new root. Unknown modes, unreadable data, several documents where one is expected, failing processing and other arguments are errors. Reading a file as binary and writing the text as binary copies the file. Exceptions: read without arguments crashes; the leading dot is ignored for templates; a marker without a leading blank is not recognised and doubled; a map with both merge fields is shown without marker; templates keeps trailing empty documents.",
 "all files, data, modes, documents and argument lists","documents and data are unbounded; the modes interact with document counts, markers and roots",["dynaml/read.go:func_read,ParseData,asTemplate","dynaml/json.go:func_parse_yaml","dynaml/template.go:node_copy","yaml/parser.go:Parse"])
p("C81","Functions: what names mean, recursion, and independence of the caller",
 "The result of an evaluation does not depend on the depth allowed for it once it is reached. In the body of a function a name means its parameter, otherwise the local name at the definition, otherwise a local name of the caller, otherwise the node seen by the caller; _.name is the node seen at the definition, also for functions returned by functions. A closed function (every name in its body is a parameter, _, or a local name of its definition, with closed values) called with closed arguments gives the same result at every place of a document and inside of any other function; if the result is data it is equal. For closed functions that do not use _ and have no variadic parameter, currying some arguments and calling the result with the rest is the same as one call, and a call with too few arguments is such a currying. Recursion through _ works for every depth: the fibonacci function of the manual yields the n-th number in 64 bit arithmetic for every n. Exceptions: names that are no local names of the definition mean parameters of the calling function, if it has one with this name, instead of nodes; after currying, _ is the function with less parameters, so recursive calls fail; the manual states fibonacci(5) = 8.",
 "all expressions, functions, arguments, places, local scopes and evaluation depths","functions can be nested, passed and returned without bound, and recursion has no bounded depth",["dynaml/lambda.go:LambdaExpr.Evaluate,LambdaValue.Evaluate,staticScope","dynaml/call.go:CallExpr.Evaluate","dynaml/scope.go","dynaml/mapping.go","flow/environment.go:WithLocalScope,FindReference"])
p("C82","The order of the fields of maps does not matter",
 "Documents that differ only in the order of the fields of their maps (Go maps have no order, their iteration order is random) are processed alike: a merge of the template with the stubs gives an error in both cases or results that are the same up to the order of fields, and the printed documents (YAML events) are identical. This holds for all expression languages whose results do not depend on the order, in particular for the dynaml expressions with builtin functions that do not depend on it; length, keys, contains, index, lastindex, element, uniq, intersect, compact, reverse, sort, list_to_map, makemap, deepmerge, split, join and trim do not. Exceptions, where the result depends on the random order: a list entry with the fields key:name and name, and a map with the keys <<!x and <<x.",
 "all templates, stubs, reorderings of fields at all depths, options, expressions, numbers of passes","the iteration order of Go maps is random: a test sees a few of the orders, and only for few documents",["flow/flow.go:flowMap,flowList,ProcessKeyTag","flow/cascade.go:Cascade,PrepareStubs,Apply,Cleanup","yaml/node.go:UnescapeDynaml","dynaml/expression.go:SortedKeys","legacy/candiedyaml/encode.go:marshal"])
p("C83","Encrypted values can be decrypted, and only authentic ones are",
 "Encrypting never fails for a non-empty key; the result is the lower case hexadecimal digits of a random initial vector and of the chained blocks of the text, its authentication code and up to 8 filling bytes. Decrypting it with the same key gives the text back, for every non-empty text, also if a line break or other characters that are no hexadecimal digits follow; hence decrypt(encrypt(v)) with the same further arguments reads the text written for v, and spiff encrypt -d prints what was given to spiff encrypt (plus a line break). A text is decrypted if and only if its digits (up to the first other character) are an initial vector and blocks whose decryption is a non-empty text sealed by its authentication code; everything else is an error. A single further argument is taken as method if it is the name of a method, and as key otherwise; an empty key is an error. Differing from what is documented or expected: only the first 16 bytes of a password matter; a password given together with a method is ignored (the key of the environment is used); the empty text cannot be decrypted; decrypting exactly 16 digits panics; hash(text, \"md4\") contains the text itself.",
 "all texts, keys, initial vectors, argument lists, cipher texts (also forged or damaged ones)","the cipher texts are random, their space and that of keys is huge; the round trip depends on the length of the text modulo the block size and on the last byte of the decryption",["dynaml/passwd/method_des1.go:Encode,DecodeString,GetCipher,CheckMAC", "dynaml/passwd/passwd.go:func_encrypt,func_decrypt", "cmd/encrypt.go:encrypt", "dynaml/md5.go:func_hash"])
p("C84","Conversions, functions on numbers, random values, pool sizes, base names",
 "string(i) and string(i,b) give exactly the canonical numeral (lower case digits, no leading zeros, minus sign) in base 10 or b (2..36, other bases are an error), and integer(string(i)) = i for every integer; integer(text) accepts exactly decimal numerals with optional sign in the range of 64 bit integers. bool, float and integer of other values are as documented. ceil, floor, round, roundtoeven keep integers and turn floats into integers; abs is the absolute value; the other functions give a float that is a number or an error. rand(n) lies in [0,n) or, for negative n, in (n,0], for every random source; rand(set,n) is the concatenation of the first n matches found in the random bytes, and ends as soon as there are n. The size of a resource pool (auto) is the sum of the instances of exactly the jobs using the pool, undefined if one of them has none. basename is the last component of the path of a URL, dirname the part before it. Deviations: string() without argument and rand of the smallest integer panic; integer(true) and round(true) are no integers for other operations; abs of the smallest integer is negative; rand of a list, a map or nil gives nil.",
 "all integers, bases, texts, argument lists, random sources, lists of jobs, paths","the numbers, texts and random sources are unbounded; boundary cases at the ends of the integer range are not met by tests",["dynaml/convert.go", "dynaml/floatmath.go:_float", "dynaml/rand.go:func_rand", "dynaml/auto.go:AutoExpr.Evaluate", "dynaml/basename.go"])
p("C85","The text written for a string is read as this string",
 "For every string, in every position of a document (list element, value or key of a map, whole document) and at every depth, the text the YAML writer emits for it - plain, single quoted, double quoted or as a block, folded over several lines if it is long - is recognised by the YAML reader as a scalar of the same style with exactly this string as value, whatever the rest of the document is, and reading stops there: nothing but blanks and line breaks of the following text is consumed. This includes all control and non-ASCII characters, leading and trailing blanks and line breaks, texts that look like comments, keys, list elements, document separators or numbers, and texts longer than a line.",
 "all strings (sequences of Unicode characters), styles asked for, indentations, columns, and all following texts","the strings, their length, the column at which lines are folded and the following text are unbounded; folding and escaping interact with blanks at arbitrary positions",["legacy/candiedyaml/emitter.go:yaml_emitter_write_plain_scalar", "legacy/candiedyaml/emitter.go:yaml_emitter_write_single_quoted_scalar", "legacy/candiedyaml/emitter.go:yaml_emitter_write_double_quoted_scalar", "legacy/candiedyaml/emitter.go:yaml_emitter_write_literal_scalar", "legacy/candiedyaml/scanner.go:yaml_parser_scan_block_scalar", "legacy/candiedyaml/scanner.go:yaml_parser_scan_flow_scalar", "legacy/candiedyaml/scanner.go:yaml_parser_scan_plain_scalar", "legacy/candiedyaml/scanner.go:yaml_parser_fetch_next_token"])
p("C86","The documents printed are read as the same documents",
 "The text the program prints for any list of documents - nested lists and maps of any depth and size with any strings as keys and values, numbers, booleans, nulls, and documents without content, with separator lines between several documents - is read by its own YAML reader as exactly these documents: same number and order of documents, same structure, same keys, same values. The indentation, the list elements written without additional indentation inside of maps, the empty collections, and the keys written with a question mark because they are long or have several lines never change the structure. (A document that is nothing but a word for null is excepted, see C74.)",
 "all non-empty lists of documents of data (any nesting, any keys and strings), all positions of documents without content","the structure follows from indentation alone: depth, width, kinds of neighbours and the text of each scalar are unbounded and interact",["legacy/candiedyaml/emitter.go:yaml_emitter_state_machine", "legacy/candiedyaml/emitter.go:yaml_emitter_emit_block_mapping_key", "legacy/candiedyaml/emitter.go:yaml_emitter_emit_block_sequence_item", "legacy/candiedyaml/scanner.go:yaml_parser_fetch_next_token", "legacy/candiedyaml/scanner.go:yaml_parser_save_simple_key", "legacy/candiedyaml/scanner.go:yaml_parser_roll_indent", "legacy/candiedyaml/scanner.go:yaml_parser_unroll_indent", "legacy/candiedyaml/parser.go:yaml_parser_state_machine", "yaml/parser.go:ParseMulti", "cmd/merge.go:merge"])
p("C87","JSON output is read back as the same document",
 "Writing a document as JSON (option --json, function as_json) fails exactly if there is an expression or a number that is not finite in it. Otherwise the text is read by the YAML reader of the program, with or without a line break behind it, as the same document: same structure of any depth, same keys, same values. The fields of an object are written in strictly ascending order of their names, and the text does not depend on the order in which the entries of a map are visited. (Excepted are characters U+007F to U+009F, keys with a text longer than 1024 characters, and a document that is nothing but a word for null.)",
 "all documents of data (any nesting, any keys and strings without the excepted characters, all numbers), all orders of map entries","depth and width of the documents and the strings in them are unbounded; each string passes an escaping made for JSON and an un-escaping made for YAML, and the structure passes a scanner with look-back for simple keys",["yaml/marshal.go:ToJSON", "yaml/marshal.go:ValueToJSON", "yaml/marshal.go:normalizeValue", "cmd/merge.go:merge", "dynaml/json.go:func_as_json", "legacy/candiedyaml/scanner.go:yaml_parser_scan_flow_scalar", "legacy/candiedyaml/parser.go:yaml_parser_parse_flow_sequence_entry", "legacy/candiedyaml/parser.go:yaml_parser_parse_flow_mapping_key", "legacy/candiedyaml/parser.go:yaml_parser_parse_flow_mapping_value"])
p("C88","Input bytes are decoded as UTF-8, however they arrive",
 "The text the YAML reader sees depends only on the sequence of input bytes, not on the pieces in which reads deliver them, even if a piece ends inside a character. Without byte order mark the input is accepted exactly if it is the (unique, shortest) UTF-8 encoding of a text of characters allowed in YAML, and then this text is what the scanner sees; over-long forms, surrogates, stray and missing trailing bytes are rejected. A UTF-8 byte order mark is skipped.",
 "all byte sequences, all ways to cut them into pieces (also empty pieces), all texts","pieces and byte sequences are unbounded; a character may be cut at any byte, and decoder, allowed characters, re-encoding into the scanner's buffer and the scanner's own decoding have to agree for every character",["legacy/candiedyaml/reader.go:yaml_parser_determine_encoding", "legacy/candiedyaml/reader.go:yaml_parser_update_raw_buffer", "legacy/candiedyaml/reader.go:yaml_parser_update_buffer", "legacy/candiedyaml/yaml_privateh.go:width"])
p("C89","The output of merge for documents without expressions is a fixed point, byte by byte",
 "If the template given to `spiff merge` (no stubs, no options) is any YAML text whose documents contain no expressions (no text contains `((`, no field name starts with `<<` or `key:`), and whose floating point numbers are not zero or NaN, then the run succeeds and touches no file, reading the output back yields documents with the same content, and merging the output again, from whatever file or from standard input, prints exactly the same bytes.",
 "all byte sequences in any YAML style accepted by the reader, all numbers and sizes of documents, all states of the surroundings, all ways to give the file","the claim is about the composition of all stages (bytes, characters, tokens, events, data, nodes, processing, clean-up, unescaping, encoding, layout, bytes) for unboundedly many texts and layouts",["cmd/merge.go:merge", "yaml/parser.go:ParseMulti", "flow/cascade.go:Apply", "flow/flow.go:NestedFlow", "legacy/candiedyaml/decode.go:Decode", "legacy/candiedyaml/encode.go:Marshal", "legacy/candiedyaml/reader.go", "legacy/candiedyaml/scanner.go", "legacy/candiedyaml/parser.go", "legacy/candiedyaml/emitter.go"])
p("C90","Merging plain files: the printed text is a text of the path-wise override",
 "If a template and stub files (at most one of them standard input) are YAML texts without expressions whose template documents are maps, `spiff merge template stub...` succeeds, changes no file, and prints one YAML document per template document which, read back, has exactly the content of the template document with every scalar map field replaced by the value the effective stubs have at its path; the effective stubs are obtained from the last to the first, every stub being merged in the same way with the effective stubs behind it, and the first stub with a value wins.",
 "all byte sequences in any YAML style accepted by the reader for template and stubs, all numbers of stubs and documents, all states of the surroundings; documents as for C02 (field names not of the form `[n]` or `a:b`, lists whose entries all have a name use distinct texts as names), floating point numbers not zero or NaN","composition of all stages for unboundedly many texts, layouts, documents and stubs; the stubs are themselves results of merges with the stubs behind them",["cmd/merge.go:merge", "flow/cascade.go:PrepareStubs", "flow/cascade.go:Apply", "flow/flow.go:NestedFlow", "flow/flow.go:flow", "yaml/parser.go:ParseMulti", "legacy/candiedyaml/encode.go:Marshal", "legacy/candiedyaml/decode.go:Decode"])
p("C91","The library: a cascade starts afresh, and processes as the command does",
 "Through the library, `Cascade` yields exactly the document obtained by processing the stubs from the last to the first and then the template, beginning with a state given only by the settings, tags and features of the context; so its result does not depend on what was processed before by this or any other context or on derived contexts, provided the slice of stubs still holds the same documents. It equals `PrepareStubs` followed by `ApplyStubs`, and `PrepareStubs` followed by streaming `ApplyStubs` yields the documents the command yields for the same stubs and stream. `ApplyStubs` without stream is `ResetStream` followed by a streaming `ApplyStubs`, and so does not depend on the documents processed before with the same prepared stubs if processing leaves nothing but what `ResetStream` drops. The slice of stubs of the caller is overwritten with the processed stubs whenever its capacity suffices for the states, and never otherwise; `SetTag` panics on every context as long as `CleanupTags` was never called, and otherwise sets the tag for all contexts sharing the map of tags.",
 "all histories of calls on any number of contexts, all documents, stubs, states, settings, slices with their capacities and growth strategies of the run time system, all processing functions","histories of calls on several contexts sharing maps and slices; the effects depend on capacities chosen by the caller and the run time system",["spiffing/spiff.go:Cascade", "spiffing/spiff.go:PrepareStubs", "spiffing/spiff.go:ApplyStubs", "spiffing/spiff.go:SetTag", "spiffing/spiff.go:CleanupTags", "spiffing/spiff.go:assureBinding", "flow/cascade.go:PrepareStubs", "flow/cascade.go:Apply"])
p("C92","Templates: nothing in a template is evaluated where it is defined; each use is a fresh instance at its own place",
 "A map whose field `<<` is a `&template` marker becomes a template with exactly its fields, none of them evaluated; a template stays as it is in every later pass. A use `*t` yields a copy of the body processed at the place of use: names in the body mean what they mean there, except for fields of the body itself and `_`, which is the template; without expressions in the body the result is exactly the data of the body, with the fields of its maps overridden by the stubs at the place of use. Hence a document of data, templates of data and uses is completely resolved without stubs: data unchanged, templates kept, each use a copy of the body of its template, whatever the order of the fields and the number of uses. A use waits as long as its template is not defined or the body is not resolvable, fails if the body has an issue, and any value which is not a template is an error.",
 "all documents, bodies, environments, stubs, expression languages, numbers of passes","definition and use may be anywhere in any document, nested to any depth, with any scopes and stubs; resolution takes several passes",["dynaml/template.go:SubstitutionExpr.Evaluate", "dynaml/template.go:node_copy", "dynaml/marker.go:TemplateExpression", "flow/flow.go:flowMap", "flow/flow.go:_flow", "flow/flow.go:asTemplate", "flow/environment.go:Flow"])
p("C93","Texts of values are parsed as these values",
 "For every value of data (64 bit integers, admissible floating point texts, for JSON no characters the YAML reader rejects), `as_yaml` and `as_json` succeed, and `parse` of the text, at any place of any document, yields the same data, as does `read` in mode import for any file with this content. In general `parse` and `read` of the UTF-8 bytes of a text without byte order mark see exactly the documents of the text. Both functions fail for any other number of arguments, and `as_json` for values with unresolved parts.",
 "all values, of any depth and with any texts; all places and files; all texts for the reading of bytes","all values and texts; two writers and one reader with their own rules for quoting, indentation and number formats must fit together for each of them",["dynaml/json.go:func_as_json", "dynaml/json.go:func_as_yaml", "dynaml/json.go:func_parse_yaml", "dynaml/read.go:ParseData", "yaml/marshal.go:ValueToJSON", "yaml/parser.go:ParseMulti", "legacy/candiedyaml/encode.go:Marshal"])
p("C94","Dependencies are resolved",
 "Documents of nested maps behave like a sheet of formulas. A reference means the field of the innermost surrounding map that has one of this name (a leading dot: the root), whatever the order of the fields. If every expression either has a value following from data and the values of the fields it refers to (over any number of steps), or depends on itself, processing terminates; data and keys are unchanged, every expression with a value is replaced by exactly this value, those depending on themselves remain, and the report of unresolved nodes names exactly their paths. A value is unique, and no expression with a value depends on itself. If all expressions have values nothing is reported.",
 "all documents of nested maps with data of any kind and expressions of references, literals, parentheses, negation, arithmetic, concatenation, comparison, conditional, alternatives for missing fields and calls of any builtin functions computing data from data; all dependency graphs, depths and orders of fields","dependency chains of any length, across any nesting and order; termination and completeness of the iteration must hold for every graph, and a cycle anywhere must neither hide values nor be missed",["flow/flow.go:flow", "flow/flow.go:flowMap", "flow/environment.go:Flow", "flow/environment.go:FindReference", "dynaml/reference.go:ReferenceExpr.Evaluate", "dynaml/unresolved_check.go:FindUnresolvedNodes"])
p("C95","Stubs and dependencies",
 "Merging a document of nested maps with any list of stubs gives the document with the values of the stubs in place: for every field the first stub with a value at its path wins over data and over the value of an expression, and all expressions, wherever they are, see the replaced values. If every expression of that document has a value or depends on itself, processing terminates with exactly these values, and the report names exactly the paths of the expressions depending on themselves. An expression must be evaluable before the value of a stub replaces it: stubs do not resolve circular expressions.",
 "all documents as in C94 and all lists of stubs that are data, whose values for the fields of the document are scalars and reach only fields with scalars or expressions; additional fields of stubs are arbitrary","all dependency graphs combined with all overridden sets of fields: a reference to an overridden field must see the stub value at any distance and whatever the evaluation order",["flow/flow.go:flow", "flow/flow.go:flowMap", "flow/environment.go:Flow", "flow/environment.go:FindInStubs", "flow/cascade.go:Cascade"])
p("C96","Complete runs with expressions",
 "Let the template file be a text of YAML documents of nested maps with data and expressions, and the stub files texts of data. If every expression has a value once the values of the effective stubs are in place (each stub merged with the stubs behind it), the merge command exits normally, writes no file, and its output is a text that reads back as exactly these documents, with all expressions replaced by their values and stub values in place. If in one of the documents some expression depends on itself and all others have values, the command fails, prints nothing and changes no file, whatever the other documents are.",
 "all template texts and stub texts whose documents are as described in C94/C95 (stubs as in C90), all numbers of documents and stubs, all dependency graphs","combines reading, stub preparation, repeated processing passes, cleanup and writing over all texts and dependency graphs; tests see single files",["cmd/merge.go:merge", "flow/cascade.go:PrepareStubs", "flow/cascade.go:Apply", "flow/flow.go:NestedFlow", "yaml/parser.go:ParseMulti", "legacy/candiedyaml/encode.go:Marshal"])
p("C97","The texts of expressions in complete runs",
 "The results about documents with expressions hold for expressions given as texts: a field whose text is an expression between double parentheses, written with the operators, references, literals, calls and parentheses of the language, has the value its expression means for the values of the other fields of the document, where the text is understood by spiff's own grammar with its priorities; and a set of fields whose written expressions each wait for another one of the set is a circular dependency, so that the command fails. In particular the parentheses added or dropped around operands when an expression is printed do not change the value.",
 "all written expressions of the modelled operators, all documents, all dependency graphs","connects the grammar (priorities, keywords, backtracking) with the evaluation of all expressions over all documents; tests cover single expressions",["dynaml/parser.go:Parse", "dynaml/dynaml.peg", "flow/flow.go:flow", "yaml/node.go:EmbeddedDynaml"])
p("C98","Password hashes verify exactly their passwords",
 "md5crypt gives the Apache apr1 hash of a password: `$apr1$`, a salt of eight letters of the hash alphabet, `$`, and 22 letters that are the 128 bits of the digest (different digests have different letters); the digest is that of the published algorithm (initial sum with the stretched intermediate sum and a byte per bit of the length, 1000 rounds). md5crypt_check is true for exactly the hashes of the password, whatever name and salt without dollar sign they contain; it is false for other texts with three dollar signs and an error for texts with another number of them. Hence for every password and every choice of random numbers, the hash given by md5crypt is accepted for the password, and for another password only if both have the same digest with this salt.",
 "all passwords (also the empty one), salts, names and random numbers, all hash texts, any MD5 function with sums of 16 bytes","the number of passwords, salts and digests is unlimited; a test compares a few known hashes",["dynaml/md5crypt.go:func_md5crypt", "dynaml/md5crypt.go:func_md5crypt_check", "dynaml/crypt/md5crypt.go:MD5Crypt", "dynaml/crypt/salt.go:GenerateSALT"])
p("C99","Texts processed through the library",
 "Process yields a text exactly if its source can be read and is one document, the cascade of the document without stubs (with the settings and tags of the context) has a result, and the text is that of the result; Cascade yields the text of the result and that of its state exactly if all sources are single documents and the cascade of the template with the stubs, followed by the states, has the result; EvaluateDynamlExpression yields the text for the expression between `(( ` and ` ))`, without its line break if it is a single line. For the same sources the library and the command merge yield the same text (except that the command prints nothing for a result marked temporary).",
 "all texts, sources, stubs, states, contexts, histories of the library world; all decoders, printers and evaluators","the agreement of library and command must hold for all sources and contexts; a test compares a few",["spiffing/utils.go:Process", "spiffing/utils.go:EvaluateDynamlExpression", "spiffing/utils.go:Cascade", "spiffing/spiff.go:UnmarshalSource", "spiffing/source.go:Source"])
p("C100","WireGuard keys",
 "wggenkey yields, for no argument or `private`, the text of a private key made of 32 random bytes: bit 254 set, bit 255 and the lowest three bits cleared, all others taken from the random bytes; so the key is a multiple of 8 between 2^254 and 2^255. For `preshared` it yields the text of the random bytes; there is no other result. The text of a key is its 256 bits as 43 base64 letters and an equals sign. wgpublickey succeeds exactly for a base64 text of 32 bytes and yields the text of the curve point for these bytes; every generated key has a public key.",
 "all arguments, random bytes, keys and texts; any function from keys to points","there are 2^256 keys; a test looks at a few random ones",["dynaml/wireguard/genkey.go:func_genkey", "dynaml/wireguard/pubkey.go:func_pubkey", "dynaml/wireguard/key.go:GeneratePrivateKey", "dynaml/wireguard/key.go:ParseKey", "dynaml/wireguard/key.go:Key"])
p("C101","Semantic versions",
 "semvermatch is true exactly if its first argument is a version that meets all constraints, false exactly if it does not meet one of them and all constraints before that one are met, otherwise an error; semvervalidate returns a version unchanged exactly if it meets all constraints; the validator takes a value that is no version as invalid instead of an error. semversort succeeds exactly for versions and yields the same texts in ascending order, for arguments as well as for one list. semverprerelease and semvermetadata with a second argument change this part only; semverrelease drops prerelease and metadata, and with a second version takes the numbers from that one and keeps prerelease and metadata of the first. semvercmp yields the order of two versions.",
 "all arguments, versions, constraints and lists; any package for versions with the stated laws","the number of versions, constraints and lists is unlimited; a test compares a few",["dynaml/semver/semver.go:func_semver2", "dynaml/semver/validate.go:validate", "dynaml/semver/match.go:func_match", "dynaml/semver/sort.go:func_sort", "dynaml/semver/compare.go:func_compare", "dynaml/semver/mod.go:func_incmajor"])
p("C102","X.509 certificates",
 "x509cert yields the text of a certificate exactly if its fields are usable: the certificate has the organizations, the common name, the countries and the hosts of the argument (addresses and names taken apart), is valid from the given time (by default now) for the given number of hours (by default 365 days), has exactly the given usages, and is an authority exactly if this is requested by isCA or by the usage certsign, having both marks then. Its public key is the given one or that of the private key; it is signed with the key of the authority, or with the own private key if no certificate of an authority is given; a missing or unreadable key, an unknown usage or a field of a wrong type is an error. x509parsecert shows for a certificate exactly its fields: isCA, commonName, country, organization, dnsNames, ipAddresses, hosts, validFrom, validUntil, validity, usage and publicKey.",
 "all arguments and certificates; any library for keys, certificates, times and addresses","fields, lists of usages and hosts and their combinations are unlimited; a test makes a few certificates",["dynaml/x509/certificate.go:func_x509cert", "dynaml/x509/parsecert.go:func_x509parsecert", "dynaml/x509/fields.go:getDefaultedStringListField", "dynaml/x509/utils.go:ParseKeyUsage"])
p("C103","Public and generated keys",
 "x509publickey yields, for the text of a private key, a public key or a certificate, the text of its public key in the requested format (pem by default, pkix or ssh, in any case of the letters), and an error for other texts and formats. Applied to the text of a public key it yields the same as for the text the key was taken from, for every format. x509genkey yields the text of an RSA key with the requested number of bits (2048 by default) or of an ECDSA key for one of the curves P224, P256, P384 and P521, and nothing else; the public key of the text is the one of the generated key. A DSA key or a certificate with a key of another type makes x509publickey panic.",
 "all arguments and keys; any library for keys and PEM blocks with the stated laws","keys, texts and formats are unlimited; a test uses a few keys",["dynaml/x509/publickey.go:func_x509publickey", "dynaml/x509/genkey.go:func_x509genkey", "dynaml/x509/utils.go:ParsePublicKey", "dynaml/x509/utils.go:pemBlockForPublicKey"])
p("C104","Matching regular expressions",
 "match(p, v) yields the list of the texts of the first match of the regular expression p in the text of v (the whole match followed by its groups), and an empty list if there is none. With a third argument it yields a list of such lists: for a number n > 0 the first n matches, for a negative number or true all matches, for false the first one. A larger number extends the list. Texts, integers and booleans are matched by their texts; nil yields false for every pattern text. Other values, patterns which are no regular expressions, the number 0 and other numbers of arguments are errors.",
 "all arguments; any library of regular expressions with the stated laws","patterns, texts and numbers of matches are unlimited; a test uses a few",["dynaml/match.go:func_match", "dynaml/match.go:MakeStringList"])
p("C105","Parsing URLs",
 "parseurl(s) succeeds exactly for the text of a URL. The result is a map with exactly these fields: scheme, host (without port), path, fragment and query as texts; port as an integer if the URL has a port which is a number of 64 bits; values with the list of values for every name of the query; userinfo with the name of the user and its password, if given. A port beyond 64 bits is left out without an error. Other arguments are errors.",
 "all arguments; any parser of URLs","texts of URLs are unlimited; a test uses a few",["dynaml/parseurl.go:func_parseurl"])
p("C106","Password hashes by bcrypt",
 "bcrypt(s) and bcrypt(s, n) succeed exactly for a text s and an integer cost n (10 by default) accepted by the package; the result is a hash of s for this cost. bcrypt_check(s, h) yields for all texts whether h is a hash of s, also if h is no hash at all; other arguments are errors. A password is accepted for every hash made of it, for every cost.",
 "all arguments, costs and random salts; any package for which a made hash is accepted","passwords, costs and salts are unlimited; a test uses a few",["dynaml/bcrypt.go:func_bcrypt", "dynaml/bcrypt.go:func_bcrypt_check"])
p("C107","Validators for keys, certificates, addresses and patterns",
 "The validators ip, cidr, match (~=) with a regular expression, privatekey, publickey, certificate and ca accept exactly the texts which are an address, a CIDR, matched by the expression, the PEM block of a private key, of a public key, of a certificate, or of a certificate of a certificate authority. They reject all other texts and fail for all other values. match fails without exactly one argument which is a regular expression; unknown names fail. Every key generated by x509genkey is accepted as a private key, and every key yielded by x509publickey in the formats pem and pkix as a public key. A DSA key is accepted as a public key although x509publickey panics for it.",
 "all values, arguments and texts; any packages for keys, certificates, addresses and regular expressions","texts, keys and patterns are unlimited; a test uses a few",["dynaml/validate.go:handleStringType", "dynaml/x509/validators.go:ValPrivateKey", "dynaml/x509/validators.go:ValPublicKey", "dynaml/x509/validators.go:ValCertificate", "dynaml/x509/validators.go:ValCA"])
p("C108","Formatted texts and errors",
 "format(f, ...) yields the text of Sprintf for the format f and the values, where lists, maps and templates are passed as YAML text, lambdas as their text and all other values unchanged; the format itself is treated the same way, so it may be a list or a lambda. It is an error exactly for a call without arguments or with a first argument without a text. error(f, ...) never yields a value, but raises an error with the text format yields as message. The program ends exactly if an argument has no YAML text.",
 "all arguments; any Sprintf and YAML encoder","formats and values are unlimited; a test uses a few",["dynaml/format.go:format", "dynaml/format.go:func_format", "dynaml/error.go:func_error"])
p("C109","Equality of nodes with annotations",
 "yaml.Equals accepts two nodes without templates exactly if they have the same positions and, at every position, the same kind and content and, but for nil, the same annotations; names of sources and the order of map fields are irrelevant. It is symmetric, and equal nodes are equivalent (EquivalentToNode). Nil nodes are equal whatever their annotations are.",
 "all pairs of nodes without templates","nodes are unlimited; a test compares a few",["yaml/equals.go:Equals"])
with open(os.path.join(os.path.dirname(__file__),"..","properties.jsonl"),"w") as f:
    for x in P: f.write(json.dumps(x)+"\n")
print(len(P))
