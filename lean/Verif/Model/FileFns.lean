import Verif.Model.StrFns
import Verif.Model.Files
import Verif.Model.Yaml
import Verif.Model.Command
import Verif.Model.Values
/-
Model of the functions of dynaml with access to files, commands and the environment: write.go, archive.go, tempfile.go, mkdir.go, exec.go,
pipe.go, lookup.go, files.go, env.go, read.go, json.go.
-/
namespace Spiff
variable {E : Type}

/-- The parts of libraries used and not modelled. -/
structure IoLib (E : Type) where
  /-- `candiedyaml.Marshal` of a node (see Model/YamlOut for its meaning); `none` for an error -/
  marshal : Node E → Option String
  /-- `strconv.FormatFloat(v, 'e', 64, 64)` -/
  showFloat : Nat → String
  /-- the environment variable `HOME` -/
  home : String
  /-- `filepath.Join` of two parts -/
  joinPath : String → String → String

/-- the bytes of a string (conversion `[]byte(s)`) -/
def utf8Bytes (s : String) : List Nat := s.toList.flatMap (fun c => (String.utf8EncodeChar c).map UInt8.toNat)

/-! ### texts of values -/

/-- Result of dynaml/exec.go `getArg`: text, whether the value is a string, and success. -/
structure ArgText where
  text : String
  isStr : Bool
  ok : Bool
deriving DecidableEq, Repr

/-- dynaml/exec.go:106-115: the entries of a list as documents -/
def marshalDocs (L : IoLib E) : List (Node E) → Option String
  | [] => some ""
  | d :: r => match L.marshal d with
    | none => none
    | some t => (marshalDocs L r).map (fun s => "---\n" ++ t ++ s)

/-- the result for an optional text of a document -/
def docText : Option String → ArgText
  | some t => ⟨t, false, true⟩
  | none => ⟨"", false, false⟩

/-- dynaml/exec.go:106-125: values that are no scalars -/
def yamlArg (L : IoLib E) (multi : Bool) (v : Val E) : ArgText :=
  if multi then
    match v with
    | .list l => docText (marshalDocs L l)
    | _ => docText none
  else docText ((L.marshal (Node.new v "")).map (fun t => "---\n" ++ t))

/-- dynaml/exec.go:91-127 `getArg` -/
def getArg (L : IoLib E) (multi allowYaml : Bool) : Val E → ArgText
  | .str s => ⟨s, true, true⟩
  | .int i => ⟨toString i, false, true⟩
  | .float f => ⟨L.showFloat f, false, true⟩
  | .bool b => ⟨showBool b, false, true⟩
  | .nil => docText none
  | v => if allowYaml then yamlArg L multi v else docText none

/-! ### options -/

/-- dynaml/write.go:45-49 -/
structure WriteOpts where
  binary : Bool := false
  multi : Bool := false
  perm : Int := 0
deriving DecidableEq, Repr

/-- `strconv.ParseInt(s, base, 64)` for the bases 8 and 10 -/
def parseIntBase (base : Nat) (s : List Char) : Option Int :=
  match s with
  | '-' :: r => if r = [] then none else signedInt true (goDigits base 0 r)
  | '+' :: r => if r = [] then none else signedInt false (goDigits base 0 r)
  | r => if r = [] then none else signedInt false (goDigits base 0 r)

/-- dynaml/write.go:55-68: the loop over the options; recognized ones are removed from the (shared) slice. -/
def scanOpts : List (List Char) → WriteOpts → List (List Char) × WriteOpts
  | [], w => ([], w)
  | o :: r, w =>
    if trimSpace o = "binary".toList ∨ trimSpace o = "#".toList then scanOpts r { w with binary := true }
    else if trimSpace o = "multiyaml".toList then scanOpts r { w with multi := true }
    else (o :: (scanOpts r w).1, (scanOpts r w).2)

/-- dynaml/write.go:69-83: the remaining options -/
def permOpt : List (List Char) × WriteOpts → Option WriteOpts
  | ([], w) => some w
  | ([v], w) => (parseIntBase (if ['0'].isPrefixOf v then 8 else 10) v).map (fun p => { w with perm := p })
  | (_, _) => none

/-- dynaml/write.go:53-88 -/
def readOpts (w : WriteOpts) : Val E → Option WriteOpts
  | .str s => permOpt (scanOpts (splitCh ',' s.toList) w)
  | .int i => some { w with perm := i }
  | _ => none

/-- dynaml/write.go:51-98 `getWriteOptions`. (Also for an error the code tests the options of `permonly`; both are errors.) -/
def getWriteOptions (v : Val E) (w : WriteOpts) (permOnly : Bool) : Option WriteOpts :=
  match readOpts w v with
  | none => none
  | some w' => if permOnly ∧ (w'.binary ∨ w'.multi) then none else some w'

/-! ### tagged file names -/

/-- dynaml/archive.go:175-187 `hasTag` for a tag of one character -/
def hasTag (tag : Char) : List Char → Bool
  | [] => false
  | c :: r =>
    if c = '*' ∨ c = '#' ∨ c = '-' then
      if c = tag then true else if c = '-' then false else hasTag tag r
    else false

/-- dynaml/archive.go:189-198 `removeTags` -/
def removeTags : List Char → List Char
  | [] => []
  | c :: r =>
    if c = '*' ∨ c = '#' ∨ c = ':' then
      if c = ':' then r else removeTags r
    else c :: r

/-- dynaml/write.go:110-124 `getData`: name, text, bytes, success -/
def getData (L : IoLib E) (file : String) (w : WriteOpts) (v : Val E) : String × String × List Nat × Bool :=
  let a := getArg L w.multi true v
  let name := filePath L.home (String.ofList (removeTags file.toList))
  if w.binary || (a.isStr && hasTag '#' file.toList) then
    match b64Decode a.text.toList with
    | some d => (name, a.text, d, true)
    | none => (name, a.text, utf8Bytes a.text, false)
  else (name, a.text, utf8Bytes a.text, a.ok)

/-! ### write, temporary files and directories -/

/-- A request to write a file: name, content and permissions (converted to 32 bits by `os.FileMode`, which is not modelled). -/
structure WriteReq where
  name : String
  data : List Nat
  perm : Int
deriving DecidableEq, Repr

/-- dynaml/write.go:26-41 after the checks: the request for the file system and the text given back -/
def writeReq (L : IoLib E) (file v : Val E) (opts : Option (Val E)) : Option (WriteReq × String) :=
  let a := getArg L false false file
  if !a.ok || decide (a.text = "") then none
  else
    match opts.elim (some { perm := 420 }) (fun o => getWriteOptions o { perm := 420 } false) with
    | none => none
    | some w =>
      let d := getData L a.text w v
      some (⟨d.1, d.2.2.1, w.perm⟩, d.2.1)

/-- The effect and the result of a function writing a file: the request made, and the result. `accepts` tells whether the file system
performs the request. -/
def performWrite (accepts : WriteReq → Bool) : Option (WriteReq × String) → Option WriteReq × Out (Val E)
  | none => (none, .err)
  | some (r, s) => (some r, if accepts r then .ok (.str s) else .err)

/-- dynaml/write.go:11-43 -/
def funcWrite (L : IoLib E) (allowed : Bool) (accepts : WriteReq → Bool) (args : List (Val E)) : Option WriteReq × Out (Val E) :=
  if args.length < 2 ∨ args.length > 3 then (none, .err)
  else if !allowed then (none, .err)
  else match args with
    | [f, v] => performWrite accepts (writeReq L f v none)
    | [f, v, o] => performWrite accepts (writeReq L f v (some o))
    | _ => (none, .err)

/-- dynaml/tempfile.go:16-29: the content and the permissions of a temporary file (see `tempfile` in Model/Files for the rest) -/
def tempData (L : IoLib E) (args : List (Val E)) : Option (List Nat × Int) :=
  match args with
  | [v] => some ((getData L "" { perm := 420 } v).2.2.1, 420)
  | [v, o] => match getWriteOptions o { perm := 420 } false with
    | none => none
    | some w => some ((getData L "" w v).2.2.1, w.perm)
  | _ => none

/-- dynaml/mkdir.go:35-41: the components of a path -/
def joinComps (L : IoLib E) : String → List (Node E) → Option String
  | p, [] => some p
  | p, c :: r =>
    let a := getArg L false false c.val
    if !a.ok || decide (a.text = "") then none else joinComps L (L.joinPath p a.text) r

/-- dynaml/mkdir.go:29-42: the path, and whether the variable `err` is still set -/
def mkdirPath (L : IoLib E) (v : Val E) : Option (String × Bool) :=
  let a := getArg L false false v
  if a.ok then some (a.text, false)
  else match v with
    | .list l => (joinComps L "" l).map (fun p => (p, true))
    | _ => none

/-- dynaml/mkdir.go:14-57; the request is (path, permissions). With options the variable `err` is overwritten, without options an error of the
first evaluation of the path remains. -/
def funcMkdir (L : IoLib E) (allowed : Bool) (accepts : String × Int → Bool) (args : List (Val E)) :
    Option (String × Int) × Out (Val E) :=
  if !allowed then (none, .err)
  else
    let run (p : String) (perm : Int) : Option (String × Int) × Out (Val E) :=
      (some (p, perm), if accepts (p, perm) then .ok (.str p) else .err)
    match args with
    | [v] => match mkdirPath L v with
      | none => (none, .err)
      | some (p, e) => if p = "" ∨ e then (none, .err) else run p 493
    | [v, o] => match mkdirPath L v with
      | none => (none, .err)
      | some (p, _) => if p = "" then (none, .err)
          else match getWriteOptions o { perm := 493 } true with
            | none => (none, .err)
            | some w => run p w.perm
    | _ => (none, .err)

/-! ### archive -/

/-- dynaml/archive.go:15-19 -/
structure FileEntry where
  path : String
  mode : Int
  data : List Nat
deriving DecidableEq, Repr

/-- `mode | 0100` on int64 -/
def orExec (m : Int) : Int := if m / 64 % 2 = 0 then m + 64 else m

/-- dynaml/archive.go:113-128 -/
def entryPath (file : Option String) (m : List (String × Node E)) : Option String :=
  match mget m "path" with
  | some n => match n.val with
    | .str s => some s
    | _ => none
  | none => file.map (fun f => String.ofList (removeTags f.toList))

/-- dynaml/archive.go:109-111, 130-140 (a nil mode is an error of `getWriteOptions`, too) -/
def entryOpts (m : List (String × Node E)) : Option WriteOpts :=
  match mget m "mode" with
  | some n => getWriteOptions n.val { perm := 420 } false
  | none => some { perm := 420 }

/-- dynaml/archive.go:142-167 -/
def entryData (L : IoLib E) (w : WriteOpts) (m : List (String × Node E)) : Option (List Nat) :=
  match mget m "base64" with
  | some n => match n.val with
    | .str s => b64Decode s.toList
    | _ => none
  | none => match mget m "data" with
    | some n => match n.val with
      | .nil => none
      | v => let d := getData L "" w v; if d.2.2.2 then some d.2.2.1 else none
    | none => some []

/-- dynaml/archive.go:105-173 `getFileEntry` -/
def getFileEntry (L : IoLib E) (file : Option String) (m : List (String × Node E)) : Option FileEntry :=
  match entryPath file m, entryOpts m with
  | some p, some w => match entryData L w m with
    | none => none
    | some d => some ⟨p, if file.any (fun f => hasTag '*' f.toList) then orExec w.perm else w.perm, d⟩
  | _, _ => none

/-- dynaml/archive.go:47-65: one entry of a map; `none` for an error, `some none` if it is skipped -/
def arMapEntry (L : IoLib E) (file : String) (v : Val E) : Option (Option FileEntry) :=
  match v with
  | .nil => some none
  | .map m => (getFileEntry L (some file) m).map some
  | v => let d := getData L file {} v; if d.2.2.2 then some (some ⟨d.1, 420, d.2.2.1⟩) else none

/-- dynaml/archive.go:46-66: the loop over the sorted keys -/
def arMapEntries (L : IoLib E) (m : List (String × Node E)) : List String → Option (List FileEntry)
  | [] => some []
  | k :: r => match mget m k with
    | none => arMapEntries L m r
    | some n => match arMapEntry L k n.val with
      | none => none
      | some none => arMapEntries L m r
      | some (some e) => (arMapEntries L m r).map (e :: ·)

/-- dynaml/archive.go:67-78: the loop over a list -/
def arListEntries (L : IoLib E) : List (Node E) → Option (List FileEntry)
  | [] => some []
  | n :: r => match n.val with
    | .map m => match getFileEntry L none m with
      | none => none
      | some e => (arListEntries L r).map (e :: ·)
    | _ => none

/-- dynaml/archive.go:43-82 -/
def archiveEntries (L : IoLib E) : Val E → Option (List FileEntry)
  | .nil => some []
  | .map m => arMapEntries L m (sortedKeys m)
  | .list l => arListEntries L l
  | _ => none

/-- dynaml/archive.go:200-224 `tar_archive` (without times), and gzip: the bytes, `none` for an error -/
structure TarLib where
  tar : List FileEntry → Option (List Nat)
  gzip : List Nat → List Nat

/-- dynaml/archive.go:84-103 -/
def packEntries (T : TarLib) (mode : String) (es : List FileEntry) : Option (List Char) :=
  if mode = "targz" then (T.tar es).map (fun d => base64Encode (T.gzip d) 60)
  else if mode = "tar" then (T.tar es).map (fun d => base64Encode d 60)
  else none

/-- dynaml/archive.go:84-103 and 43-82 in sequence -/
def archiveVal (L : IoLib E) (T : TarLib) (v : Val E) (mode : String) : Out (Val E) :=
  match archiveEntries L v with
  | none => .err
  | some es => match packEntries T mode es with
    | some s => .ok (.str (String.ofList s))
    | none => .err

/-- dynaml/archive.go:21-103 -/
def funcArchive (L : IoLib E) (T : TarLib) : List (Val E) → Out (Val E)
  | [v] => archiveVal L T v "tar"
  | [v, .str mode] => archiveVal L T v mode
  | _ => .err

/-! ### commands -/

/-- the texts of arguments; only the first one must not be structured (`first`) -/
def commandArgs (L : IoLib E) : Bool → List (Val E) → Option (List String)
  | _, [] => some []
  | first, v :: r =>
    let a := getArg L false (!first) v
    if a.ok then (commandArgs L false r).map (a.text :: ·) else none

/-- dynaml/exec.go:32-58 -/
def execArgs (L : IoLib E) : List (Val E) → Option (List String)
  | [] => none
  | [.list []] => none
  | [.list l] => commandArgs L true (l.map (·.val))
  | .list _ :: _ => none
  | args => commandArgs L true args

/-- dynaml/pipe.go:12-55: the input and the command line. (The branch for a list as only command argument is not reachable: there are at
least three arguments.) -/
def pipeArgs (L : IoLib E) : List (Val E) → Option (String × List String)
  | input :: cmd :: a :: r =>
    let i := getArg L false true input
    if !i.ok then none
    else match cmd with
      | .list _ => none
      | _ => (commandArgs L true (cmd :: a :: r)).map (fun args => (i.text, args))
  | _ => none

/-- dynaml/exec.go:78-80 -/
def dropNewlines (s : List Char) : List Char := (s.reverse.dropWhile (· = '\n')).reverse

/-- dynaml/exec.go:169-175 -/
def isMapNode (n : Node E) : Bool := match n.val with | .map _ => true | _ => false

/-- dynaml/exec.go:77-88: the result for a text -/
def plainOutput (out : String) : Val E :=
  match parseInt (String.ofList (dropNewlines out.toList)) with
  | some i => .int i
  | none => .str (String.ofList (dropNewlines out.toList))

/-- dynaml/exec.go:67-89 `convertOutput`; `parse` is `yaml.Parse` (`none` for an error) -/
def convertOutput (parse : String → Option (Node E)) (out : String) : Val E :=
  match parse out with
  | some n => if isMapNode n || isMapNode n || hasPrefix out "---\n" then n.val else plainOutput out
  | none => plainOutput out

/-- dynaml/exec.go:18-65. `run` is `cachedExecute` (see Model/Files) with the command line: the output, `none` for an error. -/
def funcExec (L : IoLib E) (allowed : Bool) (parse : String → Option (Node E)) (run : List String → Option String) (args : List (Val E)) :
    Out (Val E) :=
  if args.isEmpty then .err
  else if !allowed then .err
  else match execArgs L args with
    | none => .err
    | some cmd => match run cmd with
      | none => .err
      | some o => .ok (convertOutput parse o)

/-- dynaml/pipe.go:8-62; `run` gets also the input -/
def funcPipe (L : IoLib E) (allowed : Bool) (parse : String → Option (Node E)) (run : String → List String → Option String)
    (args : List (Val E)) : Out (Val E) :=
  if args.length ≤ 2 then .err
  else if !allowed then .err
  else match pipeArgs L args with
    | none => .err
    | some (i, cmd) => match run i cmd with
      | none => .err
      | some o => .ok (convertOutput parse o)

/-! ### finding files -/

/-- What `Stat` tells about a path: nothing (`none`: does not exist or any other error), a directory, or something else. -/
abbrev StatFn := String → Option Bool

/-- dynaml/lookup.go:73-82 `checkExistence` (`IsDir() == directory`) -/
def checkExistence (allowed : Bool) (stat : StatFn) (path : String) (directory : Bool) : Bool :=
  if allowed then (match stat path with | none => false | some d => d == directory) else false

/-- dynaml/lookup.go:26-36: the elements of a list argument -/
def lookupElems : List (Node E) → Option (List String)
  | [] => some []
  | n :: r => match n.val with
    | .nil => lookupElems r
    | .str s => (lookupElems r).map (s :: ·)
    | _ => none

/-- dynaml/lookup.go:23-42: the directories to search -/
def lookupPaths : List (Val E) → Option (List String)
  | [] => some []
  | .list l :: r => match lookupElems l, lookupPaths r with
    | some a, some b => some (a ++ b)
    | _, _ => none
  | .str s :: r => (lookupPaths r).map (s :: ·)
  | _ => none

/-- dynaml/lookup.go:54-70: the candidates that exist -/
def lookupFound (allowed : Bool) (stat : StatFn) (directory : Bool) (name : String) (paths : List String) : List String :=
  if ['/'].isPrefixOf name.toList then (if checkExistence allowed stat name directory then [name] else [])
  else ((paths.filter (fun d => d ≠ "")).map (fun d => d ++ "/" ++ name)).filter (fun p => checkExistence allowed stat p directory)

/-- dynaml/lookup.go:10-71; `src` is the source name of the binding. `filepath.IsAbs`: a leading slash. -/
def funcLookup (src : String) (allowed : Bool) (stat : StatFn) (directory : Bool) (args : List (Val E)) : Out (Val E) :=
  if !allowed then .err
  else match args with
    | f :: a :: r => match lookupPaths (a :: r) with
      | none => .err
      | some paths => match f with
        | .str name => if name = "" then .err
            else .ok (.list ((lookupFound allowed stat directory name paths).map (fun p => Node.new (.str p) src)))
        | _ => .err
    | _ => .err

/-- dynaml/files.go:7-42; `readDir` yields the sorted entries of a directory with the information whether they are directories -/
def funcListFiles (src : String) (allowed : Bool) (stat : StatFn) (readDir : String → Option (List (String × Bool))) (directory : Bool)
    (args : List (Val E)) : Out (Val E) :=
  if !allowed then .err
  else match args with
    | [.str name] => if name = "" then .err
        else if !checkExistence allowed stat name true then .err
        else match readDir name with
          | none => .err
          | some fs => .ok (.list ((fs.filter (fun f => f.2 == directory)).map (fun f => Node.new (.str f.1) src)))
    | _ => .err

/-! ### environment -/

/-- dynaml/env.go:17-25 `getenv`: the first entry `name=value` of the environment -/
def getenv (environ : List String) (name : String) : Option String :=
  match environ with
  | [] => none
  | s :: r => if hasPrefix s (name ++ "=") then some (String.ofList (s.toList.drop (name ++ "=").length)) else getenv r name

/-- dynaml/env.go:44-56 -/
def envElems : List (Node E) → Option (List String)
  | [] => some []
  | n :: r => match keyString n.val with
    | some s => (envElems r).map (s :: ·)
    | none => none

/-- dynaml/env.go:34-60 -/
def envArgs : List (Val E) → Option (List String)
  | [] => some []
  | .list l :: r => match envElems l, envArgs r with
    | some a, some b => some (a ++ b)
    | _, _ => none
  | .nil :: r => envArgs r
  | v :: r => match keyString v with
    | some s => (envArgs r).map (s :: ·)
    | none => none

/-- dynaml/env.go:70-77 -/
def envMap (environ : List String) : List String → List (String × Node E) → List (String × Node E)
  | [], m => m
  | n :: r, m => envMap environ r (match getenv environ n with | some s => mset m n (Node.new (.str s) "") | none => m)

/-- dynaml/env.go:27-79 -/
def funcEnv (environ : List String) (args : List (Val E)) : Out (Val E) :=
  if args.isEmpty then .undet
  else match envArgs args with
    | none => .err
    | some [n] => (match getenv environ n with | some s => .ok (.str s) | none => .err)
    | some ns => .ok (.map (envMap environ ns []))

end Spiff
