/-
The cache of the datasets that are downloaded (nevergrad/functions/mlda/datasets.py 17-89).

Simplifications. A file system maps the paths of the cache to contents; creating the folder (42) is left out. A request has an outcome given as an argument:
contents, a failure of the SSL verification or another error; the status of the response is part of the outcome. What is printed is left out. Parsing is one
case for each format.
-/
import Mathlib.Data.Rat.Defs
import Mathlib.Algebra.Order.Ring.Rat

namespace NG.Datasets

/-- The outcome of `requests.get` (datasets.py 50-53): contents with the status of the response, an `SSLError`, or another exception. -/
inductive Response where
  | content (status : Nat) (bytes : List Nat)
  | ssl
  | fail
deriving DecidableEq, Repr

/-- `_NAMED_URLS` (datasets.py 17-23), with the last part of each address (`Path(url).name`, 39). -/
def urlNames : List (String × String) :=
  [("German towns", "spaeth2_07.txt"), ("Ruspini", "ruspini.txt"), ("Virus", "virus3.dat"), ("Employees", "samp05d.xls"),
    ("Landscape", "GDEM-10km-colorized.png")]

/-- The path in the cache (datasets.py 26-30, 38-40), and `none` for the ValueError (34-37). -/
def cachePath (name : String) : Option String := (urlNames.lookup name).map fun u => name ++ " - " ++ u

/-- `not text.strip()` (datasets.py 45): only white space. -/
def blank (bytes : List Nat) : Bool := bytes.all fun b => [9, 10, 11, 12, 13, 32].contains b

/-- The files of the cache. Used in `getPath` (datasets.py 40-55). -/
abbrev Files := String → Option (List Nat)

/-- Download (datasets.py 49-53): what is obtained, if no exception remains, and the number of requests. -/
def download (verified unverified : Response) : Option (List Nat) × Nat :=
  match verified with
  | .content _ b => (some b, 1)
  | .fail => (none, 1)
  | .ssl => match unverified with
    | .content _ b => (some b, 2)
    | _ => (none, 2)

/-- `path.unlink()` or writing a file (datasets.py 46, 54-55). -/
def Files.set (fs : Files) (p : String) (c : Option (List Nat)) : Files := fun q => if q = p then c else fs q

/-- The files after the removal of an empty one (datasets.py 42-46). -/
def cleaned (fs : Files) (p : String) : Files :=
  match fs p with
  | some b => if blank b then fs.set p none else fs
  | none => fs

/-- `get_dataset_filepath` (datasets.py 33-56): the path, or `none` for an exception; the files afterwards; the number of requests. -/
def getPath (fs : Files) (name : String) (verified unverified : Response) : Option String × Files × Nat :=
  match cachePath name with
  | none => (none, fs, 0)
  | some p =>
    match cleaned fs p p with
    | some _ => (some p, cleaned fs p, 0)
    | none =>
      match download verified unverified with
      | (some b, n) => (some p, (cleaned fs p).set p (some b), n)
      | (none, n) => (none, cleaned fs p, n)

/-- A call: the name and the outcomes of its requests. Used in `run` (datasets.py 33). -/
structure Call where
  name : String
  verified : Response
  unverified : Response

/-- The files after a sequence of calls (datasets.py 33-56). -/
def run (fs : Files) (calls : List Call) : Files := calls.foldl (fun fs c => (getPath fs c.name c.verified c.unverified).2.1) fs

/-- The formats (datasets.py 61-69). -/
inductive Format where
  | text | sheet | picture
deriving DecidableEq, Repr

/-- The format that is read for a name (datasets.py 61-69), `none` for the NameError. -/
def format (name : String) : Option Format :=
  if name ∈ ["German towns", "Ruspini", "Virus"] then some .text
  else if name = "Employees" then some .sheet
  else if name = "Landscape" then some .picture
  else none

/-- The height of a pixel of the picture (datasets.py 67). -/
def height (r g b : ℚ) : ℚ := r * (1216 / 1000) + g * (7152 / 10000) + b * (722 / 10000)

/-- The sizes of the mocked data (datasets.py 72-82). -/
def mockedSize : String → Option (Nat × Nat)
  | "Ruspini" => some (75, 2)
  | "Virus" => some (38, 18)
  | "Employees" => some (80, 81)
  | "Landscape" => some (216, 432)
  | "German towns" => some (89, 3)
  | _ => none

end NG.Datasets
