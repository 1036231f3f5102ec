import Verif.Model.MainLoop
import Verif.Model.RadStep

set_option autoImplicit false

/-!
# Radiation in a step as programs of ranks

core/step.c:67-73, 91-104, 108, 117-120 with core/bounds.c:344-435: what `RadStep` does on all ranks at once, with the messages of
`PhotonMessages` (`sync_mpi_photons`) and `SumMessages` (`sync_radG`), in the setting of `Messages`. A packet is what `RadStep` knows of it
with its position at the end of the step. Packets are active (those removed at boundaries are in `PhotonBounds`). `sync_Jrad` and
`sync_radtype_vec` follow `sync_radG` and change other arrays (`MainLoop`). One list of packets per rank as in `RadStep`.
-/

namespace Nubhlight.RadMessages

open Bounds Messages Emission RadStep

variable {K : Type} [Field K] [LinearOrder K]

/-- Components of `radG` of a zone: four-force and sources of the electron fraction. -/
abbrev Src (K : Type) := (Fin 4 → K) × K × K

/-- As in `Emission`. -/
def toSource (v : Src K) : Source K := ⟨v.1, v.2.1, v.2.2⟩

/-- See `toSource`. -/
def ofSource (s : Source K) : Src K := (s.G, s.ye, s.yeEm)

/-- A packet with its position. -/
abbrev Parcel (K : Type) := PhotonSync.Ph K (Pkt K)

/-- Memory of a rank: conserved variables of its zones, `radG` with `radG_buf`, `photon_lists`, variables of the exchange, and whether something undefined has
happened (see `RadStep.work`). -/
structure Mem (K : Type) where
  U : ℤ → ℤ → ℤ → Cons K
  rad : SumMessages.Mem (Src K)
  pk : List (Parcel K)
  post : PhotonMessages.Post K (Pkt K)
  undef : Bool

/-- Messages. -/
inductive Mess (K : Type)
  | packets (m : PhotonMessages.Msg K (Pkt K))
  | array (A : SumMessages.Arr (Src K))

/-- See `Mess`. -/
def Mess.toPackets : Mess K → Option (PhotonMessages.Msg K (Pkt K))
  | .packets m => some m
  | _ => none

/-- See `Mess`. -/
def Mess.toArray : Mess K → Option (SumMessages.Arr (Src K))
  | .array A => some A
  | _ => none

/-- What a step depends on: settings, inputs of the ranks, positions at the end of the step of the packets of a rank in the order of its list, and what the rest of
the step does to the gas of all ranks. -/
structure StepIn (K : Type) (d1 d2 d3 : Dim) where
  g : Settings K
  d : Ranks d1 d2 d3 → Inputs K
  pos : Ranks d1 d2 d3 → ℕ → Fin 3 → K
  hydro : (Ranks d1 d2 d3 → ℤ → ℤ → ℤ → Cons K) → Ranks d1 d2 d3 → ℤ → ℤ → ℤ → Cons K

section step
variable {d1 d2 d3 : Dim} (D : StepIn K d1 d2 d3)

/-- `make_superphotons`, `push_superphotons`, `interact`, core/step.c:67-71. -/
def radiate (r : Ranks d1 d2 d3) (m : Mem K) : Mem K :=
  match rankRad D.g (D.d r) (fun z => toSource (m.rad.arr z.1 z.2.1 z.2.2)) (m.pk.map fun p => p.id) with
  | none => { m with undef := true }
  | some x => { m with rad := ⟨fun i j k => ofSource (x.1 (i, j, k)), m.rad.buf⟩, pk := x.2.mapIdx fun n p => ⟨p, D.pos r n⟩ }

/-- Shift and choice of the packets to be sent, core/bounds.c:375-425. -/
def sort (g : PhotonSync.Grid K) (r : PhotonSync.Rank g) (m : Mem K) : Mem K :=
  { m with pk := (m.pk.filter fun p => !PhotonSync.leaves g r p.x).map (PhotonSync.wrap g false),
           post := { m.post with given := (m.pk.filter fun p => PhotonSync.leaves g r p.x).map (PhotonSync.wrap g false) } }

/-- Packets received are put to the others, core/mpi.c:568-582. -/
def join (m : Mem K) : Mem K := { m with pk := m.post.kept.reverse ++ m.pk }

/-- Corrector, core/step.c:91-104. Its own messages are in `MessageRun`; here it is one operation on the gas of all ranks (that its outcome is one is C132). -/
def correct (r : Ranks d1 d2 d3) : Instr (Ranks d1 d2 d3) (Mem K) (Mess K) :=
  .coll 9 fun W => { W r with U := D.hydro (fun o => (W o).U) r }

/-- `apply_rad_force` and the reset of `radG`, core/step.c:108, 117-120. -/
def exert (m : Mem K) : Mem K :=
  { m with U := fun i j k => if act d1 i ∧ act d2 j ∧ act d3 k then applyForce D.g.c.dt (toSource (m.rad.arr i j k)) (m.U i j k) else m.U i j k,
           rad := ⟨fun _ _ _ => 0, m.rad.buf⟩ }

/-- `sync_mpi_photons`, core/bounds.c:427. -/
def exchangePart (g : PhotonSync.Grid K) (e : Ranks d1 d2 d3 ≃ PhotonSync.Rank g) : List (Ranks d1 d2 d3 → Instr (Ranks d1 d2 d3) (Mem K) (Mess K)) :=
  (PhotonMessages.exchange g).map fun I r => MainLoop.embed e Mem.post (fun m x => { m with post := x }) Mess.packets Mess.toPackets r (I (e r))

/-- `sync_radG`, core/bounds.c:429; `w` as in `SumMessages.sum`. -/
def sumPart (d1 d2 d3 : Dim) (w : ℤ → ℤ → ℤ → Bool) : List (Ranks d1 d2 d3 → Instr (Ranks d1 d2 d3) (Mem K) (Mess K)) :=
  (SumMessages.sum d1 d2 d3 w).map fun I r => MainLoop.embed (Equiv.refl _) Mem.rad (fun m x => { m with rad := x }) Mess.array Mess.toArray r (I r)

/-- A step. -/
def step (g : PhotonSync.Grid K) (e : Ranks d1 d2 d3 ≃ PhotonSync.Rank g) (w : ℤ → ℤ → ℤ → Bool) : List (Ranks d1 d2 d3 → Instr (Ranks d1 d2 d3) (Mem K) (Mess K)) :=
  [fun r => .comp (radiate D r), fun r => .comp (sort g (e r))] ++ exchangePart g e ++ [fun _ => .comp join] ++ sumPart d1 d2 d3 w
    ++ [correct D, fun _ => .comp (exert D)]

end step

/-- Any number of steps. -/
def steps {d1 d2 d3 : Dim} (g : PhotonSync.Grid K) (e : Ranks d1 d2 d3 ≃ PhotonSync.Rank g) (w : ℤ → ℤ → ℤ → Bool) (Ds : List (StepIn K d1 d2 d3)) :
    List (Ranks d1 d2 d3 → Instr (Ranks d1 d2 d3) (Mem K) (Mess K)) := Ds.flatMap fun D => step D g e w

end Nubhlight.RadMessages
