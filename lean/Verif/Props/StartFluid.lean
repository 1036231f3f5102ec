import Verif.Common
import Verif.Props.ArrayIO
import Verif.Model.StartFluid

set_option autoImplicit false

/-! # C177: starting from the fluid of another run -/

set_option linter.unusedSectionVars false

namespace Nubhlight.StartFluid

open ArrayIO

variable {V : Type*} [Zero V]

/-- The number at a zone of the grid, `p`-th of `m`, in the memories of the ranks of a run. -/
def gridValue {W : Type*} (D : Div) (g m : ℕ) (mem : ℕ × ℕ × ℕ → ℕ → W) (I J K p : ℕ) : W :=
  mem (I / (D.N1 / D.C1), J / (D.N2 / D.C2), K / (D.N3 / D.C3))
    (at4 (D.N2 / D.C2 + 2 * g) (D.N3 / D.C3 + 2 * g) m (I % (D.N1 / D.C1) + g) (J % (D.N2 / D.C2) + g) (K % (D.N3 / D.C3) + g) p)

/-- Every active zone of every rank of the new run has the variables that zone of the grid had in the earlier run. -/
def Taken (D D' : Div) (g g' m : ℕ) (mem : ℕ × ℕ × ℕ → ℕ → V) (start : ℕ × ℕ × ℕ → Option (ℕ → V)) : Prop :=
  ∀ c : ℕ × ℕ × ℕ, c.1 < D'.C1 → c.2.1 < D'.C2 → c.2.2 < D'.C3 → ∃ P : ℕ → V, start c = some P ∧
    ∀ i j k p, i < D'.N1 / D'.C1 → j < D'.N2 / D'.C2 → k < D'.N3 / D'.C3 → p < m →
      P (at4 (D'.N2 / D'.C2 + 2 * g') (D'.N3 / D'.C3 + 2 * g') m (i + g') (j + g') (k + g') p) =
        gridValue D g m mem (c.1 * (D'.N1 / D'.C1) + i) (c.2.1 * (D'.N2 / D'.C2) + j) (c.2.2 * (D'.N3 / D'.C3) + k) p

/-- C177 in full: started from a restart file of an earlier run, whatever the divisions of the grid in the two runs, the fluid is that of the earlier run. -/
def FullC177 (V : Type*) [Zero V] : Prop :=
  ∀ (D D' : Div), Even D → Even D' → D'.N1 = D.N1 ∧ D'.N2 = D.N2 ∧ D'.N3 = D.N3 → ∀ (g g' m : ℕ) (rnd : V → V) (fill : V) (mem : ℕ × ℕ × ℕ → ℕ → V)
    (order : List (ℕ × ℕ × ℕ)), Ranks D order → ∀ (rest : String → Data V) (name : String) (disk : String → Option (File V)) (prob : ℕ × ℕ × ℕ → ℕ → V),
    name ≠ "No" → disk name = some (written restartNames (prims rnd .dbl D g m mem order) rest) →
      Taken D D' g g' m mem (initialPrims fill D' g' m name disk prob)

/-- **C177.** Neither restart files nor dumps hold a dataset of the name looked for. -/
theorem C177_not_there : soughtName ∉ restartNames ∧ soughtName ∉ dumpNames := by decide +kernel

theorem sought_none (names : List String) (h : soughtName ∉ names) (p : Data V) (rest : String → Data V) : written names p rest soughtName = none := by
  simp [written, h]

/-- **C177** (what is missing: files of this program hold the variables under `P`, not `p`: `C177_ignored`). A file with the primitives of the earlier run in a
dataset `p`, written by ranks dividing the grid in any even way, read by ranks dividing it in any other even way and with another number of ghost zones: the fluid
is that of the earlier run, in every active zone and every variable. -/
theorem C177_named_partial (D D' : Div) (hD : Even D) (hD' : Even D') (hN : D'.N1 = D.N1 ∧ D'.N2 = D.N2 ∧ D'.N3 = D.N3) (g g' m : ℕ) (rnd : V → V) (fill : V)
    (mem : ℕ × ℕ × ℕ → ℕ → V) (order : List (ℕ × ℕ × ℕ)) (ho : Ranks D order) (f : File V) (hf : f "p" = some (prims rnd .dbl D g m mem order))
    (name : String) (hn : name ≠ "No") (disk : String → Option (File V)) (hd : disk name = some f) (prob : ℕ × ℕ × ℕ → ℕ → V) :
    Taken D D' g g' m mem (initialPrims fill D' g' m name disk prob) := by
  intro c h1 h2 h3
  refine ⟨readRank fill (vecSlab D' g' m c) (prims rnd .dbl D g m mem order).val fun _ => 0, ?_, ?_⟩
  · simp only [initialPrims, hn, if_false, initFluid, hd, Option.bind_some, soughtName, hf]
    simp [prims, hN.1, hN.2.1, hN.2.2]
  · intro i j k p hi hj hk hp
    exact C141_reread_vec D D' hD hD' hN g g' m rnd mem order ho _ fill _ c ⟨h1, h2, h3⟩ i j k p hi hj hk hp

/-- **C177.** In that case ghost zones are left at zero until `init_final` fills them. -/
theorem C177_named_ghosts (D : Div) (hD : Even D) (g m : ℕ) (fill : V) (d : Data V) (hdim : d.dims = [D.N1, D.N2, D.N3, m]) (f : File V) (hf : f "p" = some d)
    (c : ℕ × ℕ × ℕ) (hc : c.1 < D.C1 ∧ c.2.1 < D.C2 ∧ c.2.2 < D.C3) :
    ∃ P : ℕ → V, initFluid fill D g m (some f) c = some P ∧
      ∀ i j k p, i < D.N1 / D.C1 + 2 * g → j < D.N2 / D.C2 + 2 * g → k < D.N3 / D.C3 + 2 * g → p < m →
        ¬ ((g ≤ i ∧ i < D.N1 / D.C1 + g) ∧ (g ≤ j ∧ j < D.N2 / D.C2 + g) ∧ (g ≤ k ∧ k < D.N3 / D.C3 + g)) →
        P (at4 (D.N2 / D.C2 + 2 * g) (D.N3 / D.C3 + 2 * g) m i j k p) = 0 := by
  refine ⟨readRank fill (vecSlab D g m c) d.val fun _ => 0, ?_, ?_⟩
  · simp only [initFluid, Option.bind_some, soughtName, hf]
    simp [hdim]
  · intro i j k p hi hj hk hp hg
    exact C141_reread_ghosts D hD g m d.val fill _ c hc i j k p hi hj hk hp hg

/-- **C177** (a file of this program is not used). Whatever run wrote the file, restart file or dump, on whatever division, holding whatever fluid: every variable of
every zone of every rank is zero, as if there were no such file. -/
theorem C177_ignored (D : Div) (g m : ℕ) (fill : V) (names : List String) (hl : names = restartNames ∨ names = dumpNames) (p : Data V) (rest : String → Data V)
    (name : String) (hn : name ≠ "No") (disk : String → Option (File V)) (hd : disk name = none ∨ disk name = some (written names p rest))
    (prob : ℕ × ℕ × ℕ → ℕ → V) (c : ℕ × ℕ × ℕ) : initialPrims fill D g m name disk prob c = some fun _ => 0 := by
  have hs : soughtName ∉ names := by
    rcases hl with rfl | rfl
    · exact C177_not_there.1
    · exact C177_not_there.2
  simp only [initialPrims, hn, if_false, initFluid]
  rcases hd with hd | hd
  · rw [hd]; rfl
  · rw [hd, Option.bind_some, sought_none names hs]

/-- **C177.** With `No` the problem sets the fluid, whatever files there are. -/
theorem C177_problem (D : Div) (g m : ℕ) (fill : V) (disk : String → Option (File V)) (prob : ℕ × ℕ × ℕ → ℕ → V) (c : ℕ × ℕ × ℕ) :
    initialPrims fill D g m "No" disk prob c = some (prob c) := by simp [initialPrims]

/-- One zone, one rank. -/
def oneZone : Div := ⟨1, 1, 1, 1, 1, 1⟩

theorem oneZone_even : Even oneZone := ⟨by decide, by decide, by decide, by decide, by decide, by decide⟩

theorem oneZone_ranks : Ranks oneZone [(0, 0, 0)] := by
  rintro ⟨a, b, c⟩
  simp [oneZone]

/-- Non-vacuity: two ranks in a row wrote four zones, one rank reads them, from a dataset `p`. -/
example : ∃ (D D' : Div), Even D ∧ Even D' ∧ (D'.N1 = D.N1 ∧ D'.N2 = D.N2 ∧ D'.N3 = D.N3) ∧ D ≠ D' ∧
    ∃ P : ℕ → ℤ, initialPrims 0 D' 1 2 "old.h5" (fun _ => some fun n => if n = "p" then
      some (prims id .dbl D 1 2 (fun c x => (100 * c.1 + x : ℤ)) [(0, 0, 0), (1, 0, 0)]) else none) (fun _ _ => 7) (0, 0, 0) = some P ∧
      P (at4 3 3 2 3 1 1 1) = 100 + at4 3 3 2 1 1 1 1 := by
  refine ⟨⟨4, 1, 1, 2, 1, 1⟩, ⟨4, 1, 1, 1, 1, 1⟩, ⟨by decide, by decide, by decide, by decide, by decide, by decide⟩,
    ⟨by decide, by decide, by decide, by decide, by decide, by decide⟩, by decide, by simp, ?_⟩
  exact ⟨_, rfl, by decide +kernel⟩

/-- The full property fails wherever there is a number other than zero. -/
theorem C177_full_false (x : V) (hx : x ≠ 0) : ¬ FullC177 V := by
  intro h
  obtain ⟨P, hP, hv⟩ := h oneZone oneZone oneZone_even oneZone_even ⟨rfl, rfl, rfl⟩ 0 0 1 id 0 (fun _ _ => x) [(0, 0, 0)] oneZone_ranks
    (fun _ => ⟨[], fun _ => none⟩) "grmhd.h5" (fun _ => some (written restartNames (prims id .dbl oneZone 0 1 (fun _ _ => x) [(0, 0, 0)]) fun _ => ⟨[], fun _ => none⟩))
    (fun _ _ => x) (by decide) rfl (0, 0, 0) (by decide) (by decide) (by decide)
  rw [C177_ignored oneZone 0 1 0 restartNames (Or.inl rfl) _ _ "grmhd.h5" (by decide) _ (Or.inr rfl)] at hP
  have e := hv 0 0 0 0 (by decide) (by decide) (by decide) (by decide)
  rw [← Option.some.inj hP] at e
  exact hx e.symm

end Nubhlight.StartFluid
