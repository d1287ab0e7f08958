/-
The tables of competence maps in LaTeX, `export_table` (nevergrad/benchmark/exporttable.py 11-74).

Simplifications. A text is a list of characters. The constant lines before and after the table (36-54, 71-74) are left out, as well as what is printed. The
width of the columns (55-59) is left out: only their number is kept. The values of the rows and columns are already texts.
-/
import Mathlib.Data.List.Basic

namespace NG.ExportTable

/-- `d.replace("%", r"\%").replace("_", "")` (exporttable.py 29). -/
def escape (d : List Char) : List Char := (d.flatMap fun c => if c = '%' then ['\\', '%'] else [c]).filter fun c => c ≠ '_'

/-- `remove_parens` of a cell (exporttable.py 11-13): what comes before the first parenthesis. -/
def beforeParen (d : List Char) : List Char := d.takeWhile fun c => c ≠ '('

/-- A cell as it is written (exporttable.py 29-30). -/
def cell (d : List Char) : List Char := beforeParen (escape d)

/-- `"&".join(...)` (exporttable.py 61, 68). -/
def join : List (List Char) → List Char
  | [] => []
  | [a] => a
  | a :: b :: l => a ++ '&' :: join (b :: l)

/-- The end of a line of the table (exporttable.py 61, 69). -/
def lineEnd : List Char := ['\\', '\\', '\n']

/-- The line with the names of the columns (exporttable.py 61). -/
def header (cols : List (List Char)) : List Char := " & ".toList ++ join cols ++ lineEnd

/-- The line of a row (exporttable.py 65-69). -/
def line (row : List Char) (data : List (List Char)) : List Char := row ++ '&' :: join (data.map cell) ++ lineEnd

/-- Number of columns of the `tabular` environment (exporttable.py 57-59). -/
def columns (cols : List (List Char)) : Nat := 1 + cols.length

/-- The lines of the rows (exporttable.py 63-70): those written, and whether it ends without an IndexError (`data[i]`, 68). -/
def body : List (List Char) → List (List (List Char)) → List (List Char) × Bool
  | [], _ => ([], true)
  | _ :: _, [] => ([], false)
  | r :: rows, d :: data => (line r d :: (body rows data).1, (body rows data).2)

end NG.ExportTable
