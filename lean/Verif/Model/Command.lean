/-
Commands as functions (`nevergrad/parametrization/utils.py` 126-203) and the function made from a folder (`nevergrad/parametrization/instantiate.py` 225-309).

Simplifications. The process is the list of the characters that it writes, each to one of the two streams, and then it exits; it reads nothing. Each stream goes through a pipe that holds `cap`
characters, a write waits while the pipe is full. All characters can be decoded, and the only line separator is `\n`. The folder that the command is run in is that of `Verif/Model/Template.lean`.
-/
import Verif.Model.Template
import Mathlib.Logic.Relation

namespace NG.Command

open Tpl (Text)

/-! ### The command -/

/-- `"--{}={}".format(x, y)` (utils.py 168). -/
def option (kv : Text × Text) : Text := '-' :: '-' :: kv.1 ++ '=' :: kv.2

/-- `full_command` (utils.py 167-169). -/
def fullCommand (command args : List Text) (kwargs : List (Text × Text)) : List Text := command ++ args ++ kwargs.map option

/-! ### The process and its pipes -/

/-- One of the two pipes. Used in `start` (utils.py 173-180). -/
inductive Stream where
  | out
  | err
deriving DecidableEq, Repr

/-- Where `__call__` is: reading lines of stdout (utils.py 181-188), in `communicate` (193), or after it. -/
inductive Phase where
  | reading
  | rest
  | done
deriving DecidableEq, Repr

/-- The two processes and the pipes. Used in `Step` (utils.py 173-194). -/
structure State where
  todo : List (Stream × Char)
  alive : Bool
  out : Text
  err : Text
  got : Text
  gotErr : Text
  phase : Phase

/-- One step of the process or of `__call__` (utils.py 173-194). While it reads lines of stdout nobody reads stderr. -/
inductive Step (cap : Nat) : State → State → Prop
  | writeOut (c todo s) : s.todo = (.out, c) :: todo → s.out.length < cap → Step cap s { s with todo := todo, out := s.out ++ [c] }
  | writeErr (c todo s) : s.todo = (.err, c) :: todo → s.err.length < cap → Step cap s { s with todo := todo, err := s.err ++ [c] }
  | exit (s) : s.todo = [] → s.alive = true → Step cap s { s with alive := false }
  | readOut (c out s) : s.phase = .reading → s.out = c :: out → Step cap s { s with out := out, got := s.got ++ [c] }
  | eof (s) : s.phase = .reading → s.out = [] → s.alive = false → Step cap s { s with phase := .rest }
  | readErr (c err s) : s.phase = .rest → s.err = c :: err → Step cap s { s with err := err, gotErr := s.gotErr ++ [c] }
  | finish (s) : s.phase = .rest → s.err = [] → s.alive = false → Step cap s { s with phase := .done }

/-- The state after `Popen` (utils.py 173-180). -/
def start (prog : List (Stream × Char)) : State := ⟨prog, true, [], [], [], [], .reading⟩

/-! ### The output -/

/-- `strip()` of a line (utils.py 186). -/
def strip (space : Char → Bool) (l : Text) : Text := ((l.dropWhile space).reverse.dropWhile space).reverse

/-- The result (utils.py 194-203) for the characters that were read and the return code: the output, or the FailedJobError with the text of stderr. -/
def outcome (space : Char → Bool) (code : Nat) (got gotErr : Text) : Except Text Text :=
  if code ≠ 0 then .error gotErr else .ok (Tpl.join ((Tpl.splitlines got).map (strip space)))

/-! ### The function of a folder -/

/-- Errors of a folder function: that of the command, no output, no line to convert, or a line which is no number. Used in `folderCall` (instantiate.py 290-309). -/
inductive FErr where
  | failed (stderr : Text)
  | noOutput
  | noLine
  | noNumber
deriving DecidableEq, Repr

/-- `FolderFunction.__call__` (instantiate.py 290-309): the result and `last_full_output`. -/
def folderCall {V : Type} (space : Char → Bool) (parse : Text → Option V) (last : Option Text) (res : Except Text Text) : Except FErr V × Option Text :=
  match res with
  | .error e => (.error (.failed e), last)
  | .ok output =>
    (if output = [] then .error .noOutput
     else match Tpl.lastLine space output with
      | none => .error .noLine
      | some l => match parse l with
        | none => .error .noNumber
        | some v => .ok v, some (strip space output))

end NG.Command
