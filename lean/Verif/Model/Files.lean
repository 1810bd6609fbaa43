import Verif.Model.Find
/-
Model of the handling of files: temporary files and file cache (flow/state.go), execution cache (dynaml/exec.go), state file (cmd/merge.go).
-/
namespace Spiff

/-- file content and other byte sequences -/
abbrev Bytes := List UInt8

/-- The files of a file system (directories and permissions are not modelled). -/
abbrev FileSys := List (String × Bytes)

/-! ### temporary files -/

/-- flow/state.go:57-60 `State`: field `files` (hash to name), with the file system. -/
structure TempState where
  files : List (String × String) := []
  fs : FileSys := []

/-- Parameters: the mode bit for file access, the hash of a content (sha512, base64 encoded), and the name `TempFile` chooses (depending
on the file system); `none` if it fails. -/
structure TempCfg where
  allowed : Bool
  hash : Bytes → String
  tempFile : FileSys → Option String

/-- `TempFile` creates a new file. -/
def TempCfg.Fresh (c : TempCfg) : Prop := ∀ fs n, c.tempFile fs = some n → mget fs n = none

/-- flow/state.go:172-189 `GetTempName`. (The open file handle is never closed, which is not modelled.) -/
def getTempName (c : TempCfg) (s : TempState) (data : Bytes) : TempState × Option String :=
  if c.allowed then
    match mget s.files (c.hash data) with
    | some n => (s, some n)
    | none =>
      match c.tempFile s.fs with
      | none => (s, none)
      | some n => ({ files := mset s.files (c.hash data) n, fs := mset s.fs n [] }, some n)
  else (s, none)

/-- dynaml/tempfile.go:9-38 `tempfile` (for data already serialized; permissions not modelled): request the name, write the content -/
def tempfile (c : TempCfg) (s : TempState) (data : Bytes) : TempState × Option String :=
  match getTempName c s data with
  | (s', some n) => ({ s' with fs := mset s'.fs n data }, some n)
  | (s', none) => (s', none)

/-- flow/state.go:291-296 `Cleanup` -/
def cleanupFiles (s : TempState) : TempState :=
  { files := [], fs := s.files.foldl (fun fs e => mdel fs e.2) s.fs }

/-- the requests during one processing -/
def tempfiles (c : TempCfg) (s : TempState) (ds : List Bytes) : TempState := ds.foldl (fun s d => (tempfile c s d).1) s

/-- flow/flow.go:21-25 `NestedFlow`, flow/environment.go:376-381, 405-411 for the temp files: without an outer binding a state is
created and cleaned up at the end, otherwise the state of the outer binding is used, and not cleaned up. -/
def nestedFlowFiles (c : TempCfg) (outer : Option TempState) (fs : FileSys) (ds : List Bytes) : TempState :=
  match outer with
  | none => cleanupFiles (tempfiles c { files := [], fs := fs } ds)
  | some s => tempfiles c s ds

/-! ### file cache -/

/-- dynaml/write.go:103-111 `FilePath`; `home` is the value of `$HOME`, possibly empty -/
def filePath (home file : String) : String :=
  if hasPrefix file "~/" && decide (home ≠ "") then home ++ String.ofList (file.toList.drop 1) else file

/-- flow/state.go:299-328 `GetFileContent`. `read` yields the present content of the file (or of the URL), `none` if it cannot be
read. A successful read never yields a nil slice. Also the new cache is returned. -/
def getFileContent (home : String) (cache : List (String × Bytes)) (read : String → Option Bytes) (file : String) (cached : Bool) :
    List (String × Bytes) × Option Bytes :=
  match mget cache (filePath home file), cached with
  | some d, true => (cache, some d)
  | _, _ =>
    match read (filePath home file) with
    | none => (cache, none)
    | some d => (mset cache (filePath home file) d, some d)

/-- A read request together with the content of the files at that time. -/
structure ReadOp where
  file : String
  cached : Bool
  world : String → Option Bytes

/-- a history of read requests, starting with an empty cache -/
def readAll (home : String) (cache : List (String × Bytes)) : List ReadOp → List (String × Bytes)
  | [] => cache
  | op :: r => readAll home (getFileContent home cache op.world op.file op.cached).1 r

/-! ### execution cache -/

/-- The outcome of running a command: its standard output (`none` if there was none: `bytes.Buffer.Bytes` yields nil) and whether it failed. -/
structure Outcome where
  output : Option Bytes
  failed : Bool

/-- dynaml/exec.go:133-142: the data hashed: input and arguments, in sequence -/
def execInput (home : String) (content : Option String) (args : List String) : List Char :=
  (match content with | none => [] | some c => c.toList) ++
  (match args with | [] => [] | a :: r => (filePath home a).toList ++ (r.map String.toList).flatten)

/-- dynaml/exec.go:133-172 `cachedExecute`: the outcome `o` is observed if the command is run. The result is the new cache, whether
the command was run, and the result (`none` for an error). The lock is held all the time, so executions are sequential.
(For an empty argument list Go panics; the callers exclude that.) -/
def cachedExecute (home : String) (hash : List Char → String) (cache : Option (List (String × Bytes))) (content : Option String)
    (args : List String) (o : Outcome) : Option (List (String × Bytes)) × Bool × Option (Option Bytes) :=
  match cache with
  | none => (none, true, if o.failed then none else some o.output)
  | some m =>
    match mget m (hash (execInput home content args)) with
    | some d => (some m, false, some (some d))
    | none =>
      (some (match o.output with | none => mdel m (hash (execInput home content args)) | some d => mset m (hash (execInput home content args)) d),
        true, if o.failed then none else some o.output)

/-! ### state file -/

/-- `os.Rename` (of an existing file) -/
def rename (fs : FileSys) (a b : String) : FileSys :=
  match mget fs a with
  | none => fs
  | some d => mset (mdel fs a) b d

/-- How writing the new state ends: completely, the file cannot be opened, or an error after `k` bytes. -/
inductive WriteEnd where
  | ok
  | openFails
  | failsAfter (k : Nat)

/-- the states of the file system while a file is written: first it is truncated, then the data is added -/
def writing (fs : FileSys) (path : String) (data : Bytes) (k : Nat) : List FileSys :=
  (List.range (k + 1)).map (fun i => mset fs path (data.take i))

/-- the backup file -/
def bak (path : String) : String := path ++ ".bak"

/-- the first step, cmd/merge.go:314-318: the present state file becomes the backup. (A failing rename is ignored by the code.) -/
def backup (fs : FileSys) (path : String) (renameWorks : Bool) : FileSys :=
  if renameWorks then rename fs path (bak path) else fs

/-- the last step, cmd/merge.go:320-326: the failed write is undone -/
def undo (fs fs1 : FileSys) (path : String) : List FileSys :=
  [mdel fs1 path, if (mget fs path).isSome then rename (mdel fs1 path) (bak path) path else mdel fs1 path]

/-- cmd/merge.go:313-329: all states the file system passes during the update of the state file; the last one is the result. A crash leaves
one of them. -/
def updateState (fs : FileSys) (path : String) (data : Bytes) (renameWorks : Bool) (e : WriteEnd) : List FileSys :=
  fs :: backup fs path renameWorks ::
  match e with
  | .ok => writing (backup fs path renameWorks) path data data.length
  | .openFails => undo fs (backup fs path renameWorks) path
  | .failsAfter k => writing (backup fs path renameWorks) path data k ++ undo fs (mset (backup fs path renameWorks) path (data.take k)) path

end Spiff
