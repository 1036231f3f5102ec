import Mathlib.Data.List.Basic

set_option autoImplicit false

/-! Movies and their cached frames: script/analysis/movie.py:78-124.

Frames are known by their number, as `frame_%08d.png` is a different name for each.  What a
picture shows is the settings of the run and the dump it was drawn from.  Other files in the
directory, and the encoder, are not modelled; the encoder is given the frames from the first
on until one is missing. -/

namespace Nubhlight.MovieCache

/-- A file of a frame: whole, with settings and dump it was drawn from, or one that was
being written when the run ended. -/
inductive Pic (S D : Type) where
  | whole (s : S) (d : D)
  | broken

/-- The directory of frames. -/
abbrev Dir (S D : Type) := ℕ → Option (Pic S D)

/-- How far a run came with a frame that it has to draw.  Processes of the pool draw frames
in any order (movie.py:112-117), so this may be anything for each frame. -/
inductive Fate where
  | waiting
  | writing
  | finished
deriving DecidableEq

/-- A run: its settings, the dumps in order (`get_dumps_full`), whether frames are removed
at its end (there is an encoder and the path is relative, movie.py:119-124, util.py:75-93),
and how far it came with each frame. -/
structure Run (S D : Type) where
  settings : S
  dumps : List D
  removes : Bool
  fate : ℕ → Fate

variable {S D : Type}

/-- `make_frame` (movie.py:100-110) for the dump of that number. -/
def makeFrame (r : Run S D) (i : ℕ) (d : D) : Option (Pic S D) :=
  match r.fate i with
  | .waiting => none
  | .writing => some .broken
  | .finished => some (.whole r.settings d)

/-- Frames to do are those of dumps for which no file is there (movie.py:92-98); the others
are left. -/
def draw (r : Run S D) (dir : Dir S D) : Dir S D := fun i =>
  match dir i with
  | some p => some p
  | none =>
    match r.dumps[i]? with
    | some d => makeFrame r i d
    | none => none

/-- Whether the run came to its end: every frame to do was finished. -/
def complete (r : Run S D) (dir : Dir S D) : Bool :=
  (List.range r.dumps.length).all fun i => (dir i).isSome || decide (r.fate i = .finished)

/-- The directory after a run with a cache (movie.py:78-80, 87-124). -/
def cached (dir : Dir S D) (r : Run S D) : Dir S D :=
  if r.removes && complete r dir then fun _ => none else draw r dir

/-- The directory the encoder is given in a run without cache: whatever was there is removed
first (movie.py:81-85). -/
def uncached (_dir : Dir S D) (r : Run S D) : Dir S D := draw r fun _ => none

/-- The directory after several runs with the same cache. -/
def history (dir : Dir S D) (l : List (Run S D)) : Dir S D := l.foldl cached dir

end Nubhlight.MovieCache
