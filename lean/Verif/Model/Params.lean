import Mathlib.Data.List.Basic
import Mathlib.Logic.Function.Basic

set_option autoImplicit false

/-!
# Run-time parameters

core/input.c `set_param`, `get_param`, `read_params`. Strings are lists of characters. Lines longer than `STRLEN` and names longer than the buffers are not modelled; the
conversion of a value token to a number is left to its type and token (a token that is not a number leaves the buffer, and so the parameter, undefined).
-/

namespace Nubhlight.Params

/-- `isspace` in the C locale. -/
def isSpace (c : Char) : Bool := c == ' ' || c == '\t' || c == '\n' || c == '\r' || c == '\x0b' || c == '\x0c'

/-- The tokens that successive `%s` conversions read; `cur` is the token being read, reversed. -/
def tokensAux : List Char → List Char → List (List Char)
  | [], cur => if cur.isEmpty then [] else [cur.reverse]
  | c :: l, cur => if isSpace c then (if cur.isEmpty then tokensAux l [] else cur.reverse :: tokensAux l []) else tokensAux l (c :: cur)

def tokens (l : List Char) : List (List Char) := tokensAux l []

/-- The three types of parameter, core/input.c:207-221. -/
inductive Kind
  | int
  | dbl
  | str
  deriving DecidableEq

/-- The first five characters of the line, core/input.c:203-222. -/
def kindOf (line : List Char) : Option Kind :=
  if line.take 5 = ['[', 'i', 'n', 't', ']'] then some .int
  else if line.take 5 = ['[', 'd', 'b', 'l', ']'] then some .dbl
  else if line.take 5 = ['[', 's', 't', 'r', ']'] then some .str
  else none

/-- A line that can set a parameter: name, type, value token, core/input.c:186-222. Comments, lines that begin with white space, lines without a fourth token and lines with another type
set nothing. -/
def entry (line : List Char) : Option (List Char × Kind × List Char) :=
  match line with
  | [] => none
  | c :: _ =>
    if c = '#' ∨ isSpace c = true then none
    else match tokens line with
      | _ :: key :: _ :: val :: _ => (kindOf line).map fun k => (key, k, val)
      | _ => none

/-- `get_param`, core/input.c:29-41: the first registered name of which `key` is a prefix (`strncmp` over the length of `key`). -/
def getParam (table : List (List Char)) (key : List Char) : Option ℕ := table.findIdx? fun name => key.isPrefixOf name

/-- The values of the registered parameters and `nparamset`. -/
structure St where
  val : ℕ → Option (Kind × List Char)
  nset : ℕ

/-- The effect of one entry, core/input.c:206-223. -/
def apply (table : List (List Char)) (s : St) (e : List Char × Kind × List Char) : St :=
  match getParam table e.1 with
  | some i => ⟨Function.update s.val i (some e.2), s.nset + 1⟩
  | none => s

/-- `read_params`, core/input.c:175-243, on the rank that does input and output: `none` is the exit for a wrong number of settings. -/
def readParams (table : List (List Char)) (lines : List (List Char)) : Option (ℕ → Option (Kind × List Char)) :=
  let s := (lines.filterMap entry).foldl (apply table) ⟨fun _ => none, 0⟩
  if s.nset = table.length then some s.val else none

end Nubhlight.Params
