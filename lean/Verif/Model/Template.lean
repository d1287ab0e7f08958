import Mathlib.Data.List.Basic
import Mathlib.Tactic.Common

/-!
# Model of code templates

`Placeholder`, `FileTextFunction`, `FolderInstantiator` and `get_last_line_as_float` (`parametrization/instantiate.py`). A text is a list of
characters; the predicate `word` is the class `\w` of regular expressions.
-/

namespace NG
namespace Tpl

/-- Texts. Used in `opening` (instantiate.py 38). -/
abbrev Text := List Char

/-- `NG_ARG{` (instantiate.py 38). -/
def opening : Text := ['N', 'G', '_', 'A', 'R', 'G', '{']

/-- `LINETOKEN` (instantiate.py 18). -/
def token : Text := ['@', 'n', 'e', 'v', 'e', 'r', 'g', 'r', 'a', 'd', '@']

/-- `Placeholder` (instantiate.py 35-42). -/
structure Ph where
  name : Text
  comment : Option Text
deriving DecidableEq, Repr

/-- What remains of a text after a prefix. Used in `matchAt` (instantiate.py 38). -/
def strip : Text → Text → Option Text
  | [], s => some s
  | c :: p, d :: s => if c = d then strip p s else none
  | _ :: _, [] => none

/-- The end of `.+?}` after its first character (instantiate.py 38): the characters up to the first closing brace, on one line. -/
def closing : Text → Option (Text × Text)
  | [] => none
  | c :: t =>
    if c = '}' then some ([], t)
    else if c = '\n' then none
    else match closing t with
      | none => none
      | some (k, r) => some (c :: k, r)

/-- What follows the name (instantiate.py 38): `}` or `|comment}`. -/
def after (name : Text) : Text → Option (Ph × Text)
  | [] => none
  | c :: t =>
    if c = '}' then some (⟨name, none⟩, t)
    else if c = '|' then
      match t with
      | [] => none
      | d :: t =>
        if d = '\n' then none
        else match closing t with
          | none => none
          | some (k, r) => some (⟨name, some (d :: k)⟩, r)
    else none

/-- The regular expression at the beginning of a text (instantiate.py 38). As `\w` holds neither `|` nor `}`, the lazy name is the longest run of word
characters. -/
def matchAt (word : Char → Bool) (s : Text) : Option (Ph × Text) :=
  match strip opening s with
  | none => none
  | some r => if (r.takeWhile word).isEmpty then none else after (r.takeWhile word) (r.dropWhile word)

/-- A piece of a text. Used in `scanN` (instantiate.py 46-47, 72). -/
inductive Seg
  | lit (c : Char)
  | ph (p : Ph)
deriving DecidableEq, Repr

/-- `re.finditer` and `re.sub` (instantiate.py 46-47, 72): leftmost matches which do not overlap. `n` bounds the number of steps. -/
def scanN (word : Char → Bool) : Nat → Text → List Seg
  | 0, _ => []
  | n + 1, s =>
    match matchAt word s with
    | some (p, r) => .ph p :: scanN word n r
    | none =>
      match s with
      | [] => []
      | c :: t => .lit c :: scanN word n t

/-- The pieces of a whole text. Used in `placeholders` (instantiate.py 44-47). -/
def scan (word : Char → Bool) (s : Text) : List Seg := scanN word (s.length + 1) s

/-- `Placeholder.finditer` (instantiate.py 44-47). -/
def placeholders (word : Char → Bool) (s : Text) : List Ph :=
  (scan word s).filterMap (fun g => match g with | .ph p => some p | .lit _ => none)

/-- A value: whether it is an array, and its `repr` (of `tolist()` for arrays). Used in `convert` (instantiate.py 22-32). -/
structure Val where
  array : Bool
  repr : Text
deriving DecidableEq, Repr

/-- `_convert_to_string` (instantiate.py 22-32). `cLike` is `extension in [".h", ".hpp", ".cpp", ".c"]`. -/
def convert (cLike : Bool) (v : Val) : Text :=
  if cLike && v.array then v.repr.map (fun c => if c = '[' then '{' else if c = ']' then '}' else c) else v.repr

/-- The exceptions. Used in `replace` (instantiate.py 62-70). -/
inductive Err
  | second (name : Text)
  | noValue (name : Text)
  | unused
  | deprecated
  | unknownType
  | tagRemains
  | duplicate (name : Text)
  | otherFile
  | noPlaceholder
  | wrongInput
  | sameFolder
deriving DecidableEq, Repr

/-- The value of a keyword. Used in `replace` (instantiate.py 62-70). -/
def get (kw : List (Text × Val)) (name : Text) : Option Val := (kw.find? (fun p => p.1 == name)).map (·.2)

/-- The calls of `_replacer` (instantiate.py 62-70), with the set `found`. -/
def replace (cLike : Bool) (kw : List (Text × Val)) : List Text → List Seg → Except Err (Text × List Text)
  | found, [] => .ok ([], found)
  | found, .lit c :: l =>
    match replace cLike kw found l with
    | .ok (t, f) => .ok (c :: t, f)
    | .error e => .error e
  | found, .ph p :: l =>
    if p.name ∈ found then .error (.second p.name)
    else match get kw p.name with
      | none => .error (.noValue p.name)
      | some v =>
        match replace cLike kw (p.name :: found) l with
        | .ok (t, f) => .ok (convert cLike v ++ t, f)
        | .error e => .error e

/-- `Placeholder.sub` (instantiate.py 57-75). -/
def sub (word : Char → Bool) (cLike : Bool) (kw : List (Text × Val)) (s : Text) : Except Err Text :=
  match replace cLike kw [] (scan word s) with
  | .error e => .error e
  | .ok (t, found) => if kw.all (fun p => decide (p.1 ∈ found)) then .ok t else .error .unused

/-- `x in text` for texts. Used in `uncomment` (instantiate.py 93-109). -/
def contains (x : Text) : Text → Bool
  | [] => x.isEmpty
  | c :: t => (strip x (c :: t)).isSome || contains x t

/-- `uncomment_line` (instantiate.py 93-109); `comment` are the comment characters of the extension, `none` for an unknown extension. They are used as
they are, not as a regular expression. -/
def uncomment (comment : Option Text) (line : Text) : Except Err Text :=
  match comment with
  | none => .error .unknownType
  | some cc =>
    let indent := line.takeWhile (· == ' ')
    let out := match strip cc (line.dropWhile (· == ' ')) with
      | none => line
      | some r =>
        match strip token (r.dropWhile (· == ' ')) with
        | none => line
        | some r => indent ++ r.dropWhile (· == ' ')
    if contains token out then .error .tagRemains else .ok out

/-- `text.splitlines()` for texts whose only line separator is `\n`. Used in `prepared` (instantiate.py 130-134). -/
def splitlines : Text → List Text
  | [] => []
  | c :: t =>
    if c = '\n' then [] :: splitlines t
    else match splitlines t with
      | [] => [[c]]
      | l :: r => (c :: l) :: r

/-- `"\n".join(lines)`. Used in `prepared` (instantiate.py 130-134). -/
def join : List Text → Text
  | [] => []
  | [l] => l
  | l :: r => l ++ '\n' :: join r

/-- The lines once uncommented (instantiate.py 133-134). -/
def uncommentAll (comment : Option Text) : List Text → Except Err (List Text)
  | [] => .ok []
  | l :: r =>
    match (if contains token l then uncomment comment l else .ok l) with
    | .error e => .error e
    | .ok l' =>
      match uncommentAll comment r with
      | .error e => .error e
      | .ok r' => .ok (l' :: r')

/-- The first name which comes twice (instantiate.py 138-144). -/
def twice : List Text → List Text → Option Text
  | _, [] => none
  | seen, n :: r => if n ∈ seen then some n else twice (n :: seen) r

/-- Deprecated placeholders (instantiate.py 122). -/
def isDeprecated (s : Text) : Bool :=
  contains ['N', 'G', '_', 'G', '{'] s || contains ['N', 'G', '_', 'O', 'D', '{'] s || contains ['N', 'G', '_', 'S', 'C', '{'] s

/-- A file: its path inside the folder, its extension and its text. Used in `File.comment` (instantiate.py 132, 185). -/
structure File where
  path : Nat
  ext : Text
  text : Text
deriving DecidableEq, Repr

/-- The extensions of C (instantiate.py 28). -/
def cLike (ext : Text) : Bool :=
  ext == ['.', 'h'] || ext == ['.', 'h', 'p', 'p'] || ext == ['.', 'c', 'p', 'p'] || ext == ['.', 'c']

/-- The comment characters of a file (instantiate.py 132, 185): the table of registered types is read with the extension in lower case. -/
def File.comment (types : Text → Option Text) (f : File) : Option Text := types (f.ext.map Char.toLower)

/-- `FileTextFunction` (instantiate.py 112-144). -/
structure FileFn where
  file : File
  text : Text
  names : List Text
deriving DecidableEq, Repr

/-- The text after uncommenting (instantiate.py 130-134). -/
def prepared (types : Text → Option Text) (f : File) : Except Err Text :=
  if contains token f.text then
    match uncommentAll (f.comment types) (splitlines f.text) with
    | .error e => .error e
    | .ok ls => .ok (join ls)
  else .ok f.text

/-- `FileTextFunction.__init__` (instantiate.py 117-144). -/
def FileFn.make (word : Char → Bool) (types : Text → Option Text) (f : File) : Except Err FileFn :=
  if isDeprecated f.text then .error .deprecated
  else match prepared types f with
    | .error e => .error e
    | .ok t =>
      let names := (placeholders word t).map (·.name)
      match twice [] names with
      | some n => .error (.duplicate n)
      | none => .ok ⟨f, t, names⟩

/-- Equality as sets. Used in `FileFn.call` (instantiate.py 146-148). -/
def sameSet (a b : List Text) : Bool := a.all (fun n => decide (n ∈ b)) && b.all (fun n => decide (n ∈ a))

/-- `FileTextFunction.__call__` (instantiate.py 146-148); the extension is passed as written. -/
def FileFn.call (word : Char → Bool) (g : FileFn) (kw : List (Text × Val)) : Except Err Text :=
  if sameSet (kw.map (·.1)) g.names then sub word (cLike g.file.ext) kw g.text else .error .wrongInput

/-- The loop of `FolderInstantiator.__init__` (instantiate.py 183-193): `names` is tested but never filled. The files come in the order of their
paths. -/
def collect (word : Char → Bool) (types : Text → Option Text) (names : List Text) : List File → Except Err (List FileFn)
  | [] => .ok []
  | f :: r =>
    if (f.comment types).isNone then collect word types names r
    else match FileFn.make word types f with
      | .error e => .error e
      | .ok g =>
        if g.names.isEmpty then collect word types names r
        else if g.names.any (fun n => decide (n ∈ names)) then .error .otherFile
        else match collect word types names r with
          | .error e => .error e
          | .ok l => .ok (g :: l)

/-- `FolderInstantiator.__init__` (instantiate.py 175-195). -/
def folder (word : Char → Bool) (types : Text → Option Text) (files : List File) : Except Err (List FileFn) :=
  match collect word types [] files with
  | .error e => .error e
  | .ok l => if l.isEmpty then .error .noPlaceholder else .ok l

/-! ## Instantiation -/

/-- What a path holds: a file or a link to a path of the instrumented folder. Used in `Disk` (instantiate.py 78-90). -/
inductive Node
  | file (t : Text)
  | link (path : Nat)
deriving DecidableEq, Repr

/-- The two folders: the instrumented one holds files only, the other one files and links. They are disjoint. Used in `Disk.shadow` (instantiate.py 78-90). -/
structure Disk where
  src : Nat → Option Text
  out : Nat → Option Node

/-- Reading a path of the output folder. Used in `Disk.shadow` (instantiate.py 78-90). -/
def Disk.read (d : Disk) (p : Nat) : Option Text :=
  match d.out p with
  | none => none
  | some (.file t) => some t
  | some (.link q) => d.src q

/-- Writing to a path of the output folder, through links. Used in `writeAll` (instantiate.py 211-215). -/
def Disk.write (d : Disk) (p : Nat) (t : Text) : Disk :=
  match d.out p with
  | some (.link q) => { d with src := fun i => if i = q then some t else d.src i }
  | _ => { d with out := fun i => if i = p then some (.file t) else d.out i }

/-- `os.remove`. Used in `writeAll` (instantiate.py 211-215). -/
def Disk.remove (d : Disk) (p : Nat) : Disk := { d with out := fun i => if i = p then none else d.out i }

/-- `symlink_folder_tree` (instantiate.py 78-90): paths which already exist in the output folder are kept. -/
def Disk.shadow (d : Disk) : Disk :=
  { d with out := fun p => if (d.read p).isSome then d.out p else if (d.src p).isSome then some (.link p) else d.out p }

/-- The files to write (instantiate.py 211-215). -/
def writeAll (word : Char → Bool) (kw : List (Text × Val)) : List FileFn → Disk → Except Err Disk
  | [], d => .ok d
  | g :: l, d =>
    match g.call word (kw.filter (fun p => decide (p.1 ∈ g.names))) with
    | .error e => .error e
    | .ok t => writeAll word kw l ((d.remove g.file.path).write g.file.path t)

/-- `instantiate_to_folder` (instantiate.py 204-215); `same` is `outfolder == self.folder`. -/
def instantiate (word : Char → Bool) (same : Bool) (gs : List FileFn) (kw : List (Text × Val)) (d : Disk) : Except Err Disk :=
  if !sameSet (kw.map (·.1)) (gs.flatMap (·.names)) then .error .wrongInput
  else if same then .error .sameFolder
  else writeAll word kw gs d.shadow

/-! ## Output -/

/-- `output.strip().splitlines()[-1]` (instantiate.py 307-309): `none` is the IndexError of an output made of spaces only. -/
def lastLine (space : Char → Bool) (output : Text) : Option Text :=
  (splitlines (((output.dropWhile space).reverse.dropWhile space).reverse)).getLast?

end Tpl
end NG
