import Verif.Common
import Verif.Model.RadKinds
import Mathlib.Algebra.BigOperators.Ring.Finset
import Mathlib.Tactic.Ring
import Mathlib.Tactic.NormNum
import Mathlib.Tactic.Linarith
import Mathlib.Tactic.FieldSimp

set_option autoImplicit false
set_option linter.unusedSectionVars false

/-! # C200: gas radiates its emissivity once, however the kind of radiation is asked for -/

namespace Nubhlight.RadKinds

theorem radiated_eq (k : Kind) (n : ℕ) (zones : List Gas) (c Ns dt : ℝ) (g : Gas) (hw : wgtC k n zones c Ns ≠ 0) :
    radiated k n zones c Ns dt g = (∑ t ∈ Finset.range n, emissivity k g t) * dt := by
  unfold radiated packets
  rw [Finset.sum_mul]
  exact Finset.sum_congr rfl fun t _ => div_mul_cancel₀ _ hw

/-- **C200, full statement.** For every way to ask for radiation, in every zone the mean energy of the packets made in a step is the total
emissivity times the time. Refuted below. -/
def FullC200 : Prop :=
  ∀ (a : Asked) (given : Option ℕ) (zones : List Gas) (c Ns dt : ℝ) (g : Gas), wgtC (kind a) (numTypes a given) zones c Ns ≠ 0 →
    radiated (kind a) (numTypes a given) zones c Ns dt g = getJ (kind a) (numTypes a given) g * dt

/-- **C200 (neutrinos).** Neutrinos of all types, however many the build asks for, carry together the total emissivity. -/
theorem C200_neutrinos (given : Option ℕ) (zones : List Gas) (c Ns dt : ℝ) (g : Gas)
    (hw : wgtC .neutrinos (numTypes .nameNeutrinos given) zones c Ns ≠ 0) :
    radiated (kind .nameNeutrinos) (numTypes .nameNeutrinos given) zones c Ns dt g =
      getJ (kind .nameNeutrinos) (numTypes .nameNeutrinos given) g * dt := by
  unfold kind; rw [radiated_eq _ _ _ _ _ _ _ hw]; rfl

/-- **C200 (partial).** Light asked for with `True` or 1 and without a number of types is radiated once. Missing: light asked for by its name, or
with a number of types. -/
theorem C200_partial (zones : List Gas) (c Ns dt : ℝ) (g : Gas) (hw : wgtC .light 1 zones c Ns ≠ 0) :
    numTypes .yes none = 1 ∧ radiated (kind .yes) (numTypes .yes none) zones c Ns dt g = getJ (kind .yes) (numTypes .yes none) g * dt := by
  refine ⟨rfl, ?_⟩
  have : numTypes .yes none = 1 := rfl
  rw [this]; unfold kind
  rw [radiated_eq _ _ _ _ _ _ _ hw]
  simp [emissivity, getJ]

/-- **C200 (times radiated).** Light is radiated as many times as there are types. -/
theorem C200_times (n : ℕ) (zones : List Gas) (c Ns dt : ℝ) (g : Gas) (hw : wgtC .light n zones c Ns ≠ 0) :
    radiated .light n zones c Ns dt g = n * (getJ .light n g * dt) := by
  rw [radiated_eq _ _ _ _ _ _ _ hw]
  simp [emissivity, getJ]; ring

/-- **C200 (by name).** Asked for by its name the light is the same kind, but there are three types: every zone loses three times the energy of its
emissivity, while the cooling time counts it once. -/
theorem C200_by_name (zones : List Gas) (c Ns dt : ℝ) (g : Gas) (hw : wgtC .light 3 zones c Ns ≠ 0) :
    kind .nameLight = kind .yes ∧
    radiated (kind .nameLight) (numTypes .nameLight none) zones c Ns dt g = 3 * (getJ (kind .nameLight) (numTypes .nameLight none) g * dt) := by
  refine ⟨rfl, ?_⟩
  have : numTypes .nameLight none = 3 := rfl
  rw [this]; unfold kind
  rw [C200_times _ _ _ _ _ _ hw]; norm_num

/-- **C200 (number given).** With a number of types in the build, light is radiated that many times and neutrinos have that many types. -/
theorem C200_given (n : ℕ) (hn : 0 < n) (zones : List Gas) (c Ns dt : ℝ) (g : Gas) (hw : wgtC .light n zones c Ns ≠ 0) :
    radiated (kind .yes) (numTypes .yes (some n)) zones c Ns dt g = n * (getJ .light n g * dt) ∧
    getJ (kind .nameNeutrinos) (numTypes .nameNeutrinos (some n)) g = ∑ t ∈ Finset.range n, g.nu t := by
  obtain ⟨m, rfl⟩ := Nat.exists_eq_succ_of_ne_zero hn.ne'
  have h1 : numTypes .yes (some (m + 1)) = m + 1 := rfl
  have h2 : numTypes .nameNeutrinos (some (m + 1)) = m + 1 := rfl
  rw [Nat.succ_eq_add_one, h1, h2]
  refine ⟨?_, ?_⟩
  · unfold kind
    exact C200_times _ _ _ _ _ _ hw
  · rfl

/-- **C200 (packets).** The number of packets does not show it: they are as many in total as with one type, each with three times the weight. -/
theorem C200_packets (n : ℕ) (zones : List Gas) (c Ns dt : ℝ) (g : Gas) (hn : 0 < n) (hw : wgtC .light 1 zones c Ns ≠ 0) :
    ∑ t ∈ Finset.range n, packets .light n zones c Ns dt g t = packets .light 1 zones c Ns dt g 0 ∧
    wgtC .light n zones c Ns = n * wgtC .light 1 zones c Ns := by
  have e : wgtC .light n zones c Ns = n * wgtC .light 1 zones c Ns := by
    unfold wgtC
    have : (zones.map fun g => ∑ t ∈ Finset.range n, emissivity .light g t) = zones.map fun g => (n : ℝ) * g.light := by
      apply List.map_congr_left; intro g _; simp [emissivity]
    have h1 : (zones.map fun g => ∑ t ∈ Finset.range 1, emissivity .light g t) = zones.map fun g => g.light := by
      apply List.map_congr_left; intro g _; simp [emissivity]
    rw [this, h1, List.sum_map_mul_left]; ring
  refine ⟨?_, e⟩
  have hn' : (n : ℝ) ≠ 0 := by exact_mod_cast hn.ne'
  unfold packets
  rw [e]
  simp only [emissivity, Finset.sum_const, Finset.card_range, nsmul_eq_mul]
  field_simp

/-- **C200 is false** of light asked for by name (as prob/torus_cbc/build.py:104 does, there without emission). -/
theorem C200_full_false : ¬ FullC200 := by
  intro hf
  have hw : wgtC .light 3 [⟨1, fun _ => 0⟩] 1 1 ≠ 0 := by norm_num [wgtC, emissivity]
  have h := hf .nameLight none [⟨1, fun _ => 0⟩] 1 1 1 ⟨1, fun _ => 0⟩ hw
  rw [(C200_by_name _ _ _ _ _ hw).2] at h
  norm_num [getJ, kind] at h

/-- The partial theorem applies to a zone that radiates. -/
example : wgtC .light 1 [⟨1, fun _ => 0⟩] 1 1 ≠ 0 := by norm_num [wgtC, emissivity]
example : wgtC .neutrinos (numTypes .nameNeutrinos (some 4)) [⟨0, fun _ => 1⟩] 1 1 ≠ 0 := by norm_num [wgtC, emissivity, numTypes]

end Nubhlight.RadKinds
