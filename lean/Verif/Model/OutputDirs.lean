import Mathlib.Data.List.SplitOn
import Mathlib.Data.List.Basic
import Mathlib.Data.Nat.Notation

set_option autoImplicit false

/-!
How a run names and makes the directories it writes to: core/io.c:157-194 (`init_io`), core/util.c:36-42 (`safe_system`), with `outputdir` from the parameter file
(core/input.c:172, 184-221) or empty (core/main.c:90).

Simplifications. A buffer is a function from indices to characters; a write outside its `STRLEN` characters is `none`. The shell that `system` runs splits the command at blanks and
does nothing else, which is so if no character is special to it.
-/

namespace Nubhlight.OutputDirs

/-- core/decs.h:119. -/
def STRLEN : ℕ := 2048

/-- A buffer. -/
abbrev Buf := ℕ → Char

/-- The character that ends a string. -/
def nul : Char := Char.ofNat 0

/-- Characters written from index `o` on. -/
def writeAt (b : Buf) (o : ℕ) (s : List Char) : Option Buf :=
  if o + s.length ≤ STRLEN then some fun i => if o ≤ i then s.getD (i - o) (b i) else b i else none

/-- `strlen`; `none` if the buffer has no end of string. -/
def strlen (b : Buf) : Option ℕ := (List.range STRLEN).find? fun i => b i = nul

/-- The string in a buffer, as `strcat` reads its second argument. -/
def cstr (b : Buf) : Option (List Char) := (strlen b).map fun n => (List.range n).map b

/-- `strcpy`. -/
def strcpy (b : Buf) (s : List Char) : Option Buf := writeAt b 0 (s ++ [nul])

/-- `strcat`. -/
def strcat (b : Buf) (s : List Char) : Option Buf := (strlen b).bind fun n => writeAt b n (s ++ [nul])

/-- `memmove(b + len, b, n)`. -/
def memmove (b : Buf) (len n : ℕ) : Option Buf := writeAt b len ((List.range n).map b)

/-- `for (n = 0; n < len; ++n) b[n] = outputdir[n]`, core/io.c:172-179. -/
def copyFront (out : Buf) (len : ℕ) (b : Buf) : Option Buf := (List.range len).foldlM (fun b n => writeAt b n [out n]) b

/-- One directory, e.g. `dumpdir`: core/io.c:158, 165-166, 172-173. -/
def dirOf (out : Buf) (name : List Char) (b : Buf) : Option Buf := do
  let b ← strcpy b name
  let len ← strlen out
  let n ← strlen b
  let b ← memmove b len (n + 1)
  copyFront out len b

/-- What `init_io` has set up. -/
structure Dirs where
  dump : Buf
  restart : Buf
  xmf : Buf
  tracer : Buf
  command : Buf

/-- ` dir` appended to the command, e.g. core/io.c:185-186. -/
def addDir (c d : Buf) : Option Buf := do
  let c ← strcat c [' ']
  let s ← cstr d
  strcat c s

/-- `init_io`, core/io.c:157-194: the directories and, on the rank that does it, the command. `old` is what the buffers held. -/
def initIo (tracers : Bool) (out : Buf) (old : Dirs) : Option Dirs := do
  let dump ← dirOf out "dumps/".toList old.dump
  let restart ← dirOf out "restarts/".toList old.restart
  let xmf ← dirOf out "dumps/xmf/".toList old.xmf
  let tracer ← if tracers then dirOf out "dumps/tracers/".toList old.tracer else some old.tracer
  let c ← strcpy old.command "mkdir -p ".toList
  let d ← cstr dump
  let c ← strcat c d
  let c ← addDir c restart
  let c ← addDir c xmf
  let c ← if tracers then addDir c tracer else some c
  return ⟨dump, restart, xmf, tracer, c⟩

/-- The words the shell makes of a command. -/
def shellWords (s : List Char) : List (List Char) := s.splitOn ' '

end Nubhlight.OutputDirs
