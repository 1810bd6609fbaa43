import Mathlib.Data.List.Forall2
import Verif.Model.FileFns
import Verif.Spec.YamlScalar
import Verif.Spec.Select
/-
Specification vocabulary for the functions writing files and calling commands: texts of values, options, tagged names.
-/
namespace Spiff.Spec
variable {E : Type}

/-- neither nil nor a string, number or boolean -/
def Structured : Val E → Prop
  | .nil | .str _ | .int _ | .float _ | .bool _ => False
  | _ => True

/-- the text of a simple value -/
inductive ScalarText (L : IoLib E) : Val E → String → Prop
  | str (s : String) : ScalarText L (.str s) s
  | int (i : Int) : ScalarText L (.int i) (toString i)
  | float (f : Nat) : ScalarText L (.float f) (L.showFloat f)
  | true : ScalarText L (.bool Bool.true) "true"
  | false : ScalarText L (.bool Bool.false) "false"

/-- The text of a value: simple values are written as such, all others as a YAML document with the marker `---`; with `multi` only lists are
possible, every entry is a document. -/
inductive DataText (L : IoLib E) (multi : Bool) : Val E → String → Prop
  | simple (v : Val E) (t : String) (h : ScalarText L v t) : DataText L multi v t
  | doc (v : Val E) (t : String) (hv : Structured v) (hm : multi = false) (h : L.marshal (Node.new v "") = some t) :
      DataText L multi v ("---\n" ++ t)
  | docs (l : List (Node E)) (ts : List String) (hm : multi = true) (h : List.Forall₂ (fun n t => L.marshal n = some t) l ts) :
      DataText L multi (.list l) (String.join (ts.map (fun t => "---\n" ++ t)))

/-! ### options -/

/-- `ps` are the parts of `s` between the separators -/
inductive PartsAt (sep : Char) : List Char → List (List Char) → Prop
  | one (p : List Char) (h : sep ∉ p) : PartsAt sep p [p]
  | more (p s : List Char) (ps : List (List Char)) (h : sep ∉ p) (hs : PartsAt sep s ps) : PartsAt sep (p ++ sep :: s) (p :: ps)

/-- white space -/
def Blank (c : Char) : Prop := c ∈ [' ', '\t', '\n', '\r', Char.ofNat 11, Char.ofNat 12]

/-- the word `w`, possibly surrounded by white space -/
def WordIn (p w : List Char) : Prop := ∃ a b, p = a ++ w ++ b ∧ (∀ c ∈ a, Blank c) ∧ ∀ c ∈ b, Blank c

/-- options that request binary data -/
def BinaryOpt (p : List Char) : Prop := WordIn p "binary".toList ∨ WordIn p "#".toList

/-- the option for several documents -/
def MultiOpt (p : List Char) : Prop := WordIn p "multiyaml".toList

/-- Permissions as text: octal digits after a leading zero, otherwise a decimal number. No white space is allowed. -/
inductive PermText : List Char → Int → Prop
  | octal (r : List Char) (n : Nat) (h : Numeral 8 ('0' :: r) n) (hn : n < 2^63) : PermText ('0' :: r) n
  | decimal (r : List Char) (n : Nat) (h : Numeral 10 r n) (h0 : r.head? ≠ some '0') (hn : n < 2^63) : PermText r n
  | plus (r : List Char) (n : Nat) (h : Numeral 10 r n) (hn : n < 2^63) : PermText ('+' :: r) n
  | minus (r : List Char) (n : Nat) (h : Numeral 10 r n) (hn : n ≤ 2^63) : PermText ('-' :: r) (-n)

/-- The meaning of an option value: an integer sets the permissions; a text is a list of words separated by commas, with at most one part
for the permissions. `d` are the default permissions. -/
inductive OptionsOf (d : Int) : Val E → WriteOpts → Prop
  | perm (i : Int) : OptionsOf d (.int i) ⟨false, false, i⟩
  | words (s : String) (ps : List (List Char)) (b m : Bool) (hp : PartsAt ',' s.toList ps) (hb : b = true ↔ ∃ p ∈ ps, BinaryOpt p)
      (hm : m = true ↔ ∃ p ∈ ps, MultiOpt p) (h : ∀ p ∈ ps, BinaryOpt p ∨ MultiOpt p) : OptionsOf d (.str s) ⟨b, m, d⟩
  | both (s : String) (bf af : List (List Char)) (p : List Char) (b m : Bool) (i : Int) (hp : PartsAt ',' s.toList (bf ++ p :: af))
      (hb : b = true ↔ ∃ q ∈ bf ++ p :: af, BinaryOpt q) (hm : m = true ↔ ∃ q ∈ bf ++ p :: af, MultiOpt q)
      (h : ∀ q ∈ bf ++ af, BinaryOpt q ∨ MultiOpt q) (hi : PermText p i) : OptionsOf d (.str s) ⟨b, m, i⟩

/-- optional options -/
def OptOptionsOf (d : Int) (o : Option (Val E)) (w : WriteOpts) : Prop :=
  (o = none ∧ w = ⟨false, false, d⟩) ∨ ∃ v, o = some v ∧ OptionsOf d v w

/-! ### names -/

/-- A file name with tags: `*` and `#` are tags, they end with a colon or with the first other character. -/
def TaggedName (t tags name : List Char) : Prop :=
  (∀ c ∈ tags, c = '*' ∨ c = '#') ∧
  (t = tags ++ ':' :: name ∨ t = tags ++ name ∧ ∀ c, name.head? = some c → c ≠ '*' ∧ c ≠ '#' ∧ c ≠ ':')

/-- a leading `~/` means the home directory, if there is one -/
def Expanded (home : String) (f g : String) : Prop :=
  (∃ r, f = "~/" ++ r ∧ home ≠ "" ∧ g = home ++ "/" ++ r) ∨ ((home = "" ∨ ¬ ∃ r, f = "~/" ++ r) ∧ g = f)

/-- the file meant by a tagged name -/
def FileNamed (home : String) (t : String) (tags : List Char) (g : String) : Prop :=
  ∃ name, TaggedName t.toList tags name ∧ Expanded home (String.ofList name) g

/-! ### contents -/

/-- The bytes meant by a text: for binary data the text is base64. -/
def BytesOf (binary : Prop) (t : String) (d : List Nat) : Prop :=
  (binary ∧ b64Decode t.toList = some d) ∨ (¬ binary ∧ d = utf8Bytes t)

/-- Texts for which binary data is expected, because of the options, or for a string written to a file with tag `#`. -/
def WantsBinary (w : WriteOpts) (tags : List Char) (v : Val E) : Prop := w.binary = true ∨ (∃ s, v = .str s) ∧ '#' ∈ tags

/-- What the functions write to a file: the bytes meant by the text of the value; and without a report, the text itself if it is not base64 and
nothing for a value without text. -/
inductive Written (L : IoLib E) (w : WriteOpts) (tags : List Char) (v : Val E) : String → List Nat → Prop
  | regular (t : String) (d : List Nat) (h : DataText L w.multi v t) (hd : BytesOf (WantsBinary w tags v) t d) : Written L w tags v t d
  | noBase64 (t : String) (h : DataText L w.multi v t) (hb : WantsBinary w tags v) (hd : b64Decode t.toList = none) :
      Written L w tags v t (utf8Bytes t)
  | noText (h : ¬ ∃ t, DataText L w.multi v t) : Written L w tags v "" []

/-- The file written by `write(file, value, options)`: `raw` is the text given back. The default permissions are 0644. -/
def WriteSpec (L : IoLib E) (args : List (Val E)) (raw : String) (r : WriteReq) : Prop :=
  ∃ (f v : Val E) (o : Option (Val E)) (t : String) (w : WriteOpts) (tags : List Char),
    args = f :: v :: o.toList ∧ ScalarText L f t ∧ t ≠ "" ∧ OptOptionsOf 0o644 o w ∧ FileNamed L.home t tags r.name ∧
    Written L w tags v raw r.data ∧ r.perm = w.perm

/-- The content and the permissions of the file of `tempfile(value, options)`. -/
def TempSpec (L : IoLib E) (args : List (Val E)) (d : List Nat) (perm : Int) : Prop :=
  ∃ (v : Val E) (o : Option (Val E)) (w : WriteOpts) (raw : String),
    args = v :: o.toList ∧ OptOptionsOf 0o644 o w ∧ Written L w [] v raw d ∧ perm = w.perm

/-- The path meant by the components of a list, joined one after the other. -/
inductive Joined (L : IoLib E) : List (Node E) → String → Prop
  | nil : Joined L [] ""
  | snoc (l : List (Node E)) (n : Node E) (p t : String) (h : Joined L l p) (ht : ScalarText L n.val t) (hne : t ≠ "") :
      Joined L (l ++ [n]) (L.joinPath p t)

/-! ### archives -/

/-- an optional field -/
def HasField (m : List (String × Node E)) (k : String) (v : Val E) : Prop := ∃ n, mget m k = some n ∧ n.val = v

/-- The file described by the fields of an entry: `key` is its key in a map. -/
structure FieldsOf (L : IoLib E) (key : Option String) (m : List (String × Node E)) (e : FileEntry) : Prop where
  /-- the field `path`, otherwise the key without tags -/
  path : HasField m "path" (.str e.path) ∨
    (mget m "path" = none ∧ ∃ k tags name, key = some k ∧ TaggedName k.toList tags name ∧ e.path = String.ofList name)
  /-- the field `mode` with default 0644; the tag `*` makes the file executable; the field `base64`, otherwise the field `data`, otherwise nothing -/
  rest : ∃ w : WriteOpts, ((∃ v, HasField m "mode" v ∧ OptionsOf 0o644 v w) ∨ (mget m "mode" = none ∧ w = ⟨false, false, 0o644⟩)) ∧
    (((∃ k tags name, key = some k ∧ TaggedName k.toList tags name ∧ '*' ∈ tags) ∧ e.mode = orExec w.perm) ∨
      (¬ (∃ k tags name, key = some k ∧ TaggedName k.toList tags name ∧ '*' ∈ tags) ∧ e.mode = w.perm)) ∧
    ((∃ s, HasField m "base64" (.str s) ∧ b64Decode s.toList = some e.data) ∨
     (mget m "base64" = none ∧ ∃ v, HasField m "data" v ∧ v ≠ .nil ∧
        ((∃ t, DataText L w.multi v t ∧ BytesOf (w.binary = true) t e.data) ∨
         ((¬ ∃ t, DataText L w.multi v t) ∧ w.binary = true ∧ e.data = []))) ∨
     (mget m "base64" = none ∧ mget m "data" = none ∧ e.data = []))

/-- The file for an entry of a map: entries without value are no files; a map describes the file by its fields, any other value is its
content. -/
inductive ItemOf (L : IoLib E) (k : String) : Val E → Option FileEntry → Prop
  | skipped : ItemOf L k .nil none
  | fields (m : List (String × Node E)) (e : FileEntry) (h : FieldsOf L (some k) m e) : ItemOf L k (.map m) (some e)
  | content (v : Val E) (tags : List Char) (f t : String) (d : List Nat) (hn : v ≠ .nil) (hm : ∀ m, v ≠ .map m)
      (hf : FileNamed L.home k tags f) (ht : DataText L false v t) (hd : BytesOf ((∃ s, v = .str s) ∧ '#' ∈ tags) t d) :
      ItemOf L k v (some ⟨f, 0o644, d⟩)

/-- The files of an archive. -/
inductive FilesOf (L : IoLib E) : Val E → List FileEntry → Prop
  | nothing : FilesOf L .nil []
  | map (m : List (String × Node E)) (ks : List String) (items : List (Option FileEntry)) (hp : ks.Perm (m.map (·.1)))
      (hs : ks.Pairwise (· ≤ ·)) (h : List.Forall₂ (fun k i => ∃ v, HasField m k v ∧ ItemOf L k v i) ks items) :
      FilesOf L (.map m) (items.filterMap id)
  | list (l : List (Node E)) (es : List FileEntry) (h : List.Forall₂ (fun n e => ∃ m, n.val = .map m ∧ FieldsOf L none m e) l es) :
      FilesOf L (.list l) es

/-! ### commands -/

/-- The command line: the command is given by a simple value, the arguments by any values. -/
inductive LineOf (L : IoLib E) : List (Val E) → List String → Prop
  | mk (c : Val E) (args : List (Val E)) (t : String) (ts : List String) (hc : ScalarText L c t)
      (ha : List.Forall₂ (fun v t => DataText L false v t) args ts) : LineOf L (c :: args) (t :: ts)

/-- … or both by a single list -/
def CommandLine (L : IoLib E) (args : List (Val E)) (line : List String) : Prop :=
  LineOf L args line ∨ ∃ l : List (Node E), args = [.list l] ∧ LineOf L (l.map (·.val)) line

/-- a text without its trailing newlines -/
def WithoutNewlines (s t : List Char) : Prop := (∃ k, s = t ++ List.replicate k '\n') ∧ t.getLast? ≠ some '\n'

/-- a decimal number of 64 bits, with an optional sign -/
def SignedDecimal (t : List Char) (i : Int) : Prop :=
  -(2^63) ≤ i ∧ i < 2^63 ∧ ∃ n : Nat, (Decimal t n ∧ i = n) ∨
    (∃ ds, Decimal ds n ∧ ((t = '-' :: ds ∧ i = -(n : Int)) ∨ (t = '+' :: ds ∧ i = n)))

/-- The value for the output of a command: a YAML document if it is a map or begins with the marker, otherwise its text without trailing newlines,
as integer if possible. -/
inductive OutputOf (parse : String → Option (Node E)) (out : String) : Val E → Prop
  | doc (n : Node E) (h : parse out = some n) (hm : (∃ m, n.val = .map m) ∨ ∃ r, out = "---\n" ++ r) : OutputOf parse out n.val
  | int (t : List Char) (i : Int) (h : ∀ n, parse out = some n → (∀ m, n.val ≠ .map m) ∧ ¬ ∃ r, out = "---\n" ++ r)
      (ht : WithoutNewlines out.toList t) (hi : SignedDecimal t i) : OutputOf parse out (.int i)
  | text (t : List Char) (h : ∀ n, parse out = some n → (∀ m, n.val ≠ .map m) ∧ ¬ ∃ r, out = "---\n" ++ r)
      (ht : WithoutNewlines out.toList t) (hi : ∀ i, ¬ SignedDecimal t i) : OutputOf parse out (.str (String.ofList t))

/-! ### finding files -/

/-- the strings given directly or in lists, in order; in lists nil is ignored -/
inductive DirsOf : List (Val E) → List String → Prop
  | nil : DirsOf [] []
  | str (s : String) (r : List (Val E)) (ds : List String) (h : DirsOf r ds) : DirsOf (.str s :: r) (s :: ds)
  | list (l : List (Node E)) (r : List (Val E)) (ss : List (Option String)) (ds : List String)
      (hl : List.Forall₂ (fun n o => (n.val = .nil ∧ o = none) ∨ ∃ s, n.val = .str s ∧ o = some s) l ss) (h : DirsOf r ds) :
      DirsOf (.list l :: r) (ss.filterMap id ++ ds)

/-- what is looked up -/
def IsKind (stat : StatFn) (directory : Bool) (p : String) : Prop := stat p = some directory

/-- the paths tried for a name: an absolute name itself, otherwise in every directory -/
def Candidates (name : String) (dirs : List String) : List String :=
  if name.toList.head? = some '/' then [name] else (dirs.filter (· ≠ "")).map (· ++ "/" ++ name)

/-! ### environment -/

/-- the text of a name of an environment variable -/
inductive EnvName : Val E → String → Prop
  | str (s : String) : EnvName (.str s) s
  | int (i : Int) : EnvName (.int i) (toString i)
  | true : EnvName (.bool Bool.true) "true"
  | false : EnvName (.bool Bool.false) "false"

/-- the names given directly or in lists, in order; nil as argument is ignored -/
inductive NamesOf : List (Val E) → List String → Prop
  | nil : NamesOf [] []
  | skip (r : List (Val E)) (ns : List String) (h : NamesOf r ns) : NamesOf (.nil :: r) ns
  | one (v : Val E) (s : String) (r : List (Val E)) (ns : List String) (hv : EnvName v s) (h : NamesOf r ns) : NamesOf (v :: r) (s :: ns)
  | list (l : List (Node E)) (ss : List String) (r : List (Val E)) (ns : List String)
      (hl : List.Forall₂ (fun n s => EnvName n.val s) l ss) (h : NamesOf r ns) : NamesOf (.list l :: r) (ss ++ ns)

/-- the first definition of the name in the environment -/
def EnvValue (environ : List String) (name value : String) : Prop :=
  ∃ bf af, environ = bf ++ (name ++ "=" ++ value) :: af ∧ ∀ x ∈ bf, ¬ ∃ y, x = name ++ "=" ++ y

end Spiff.Spec
