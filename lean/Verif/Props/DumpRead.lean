import Verif.Common
import Verif.Model.DumpRead

set_option autoImplicit false
set_option linter.unusedSectionVars false

/-! # C194: loading dumps -/

namespace Nubhlight.DumpRead

/-- A property of all configurations, by going through them. -/
theorem all_cfg (p : Cfg → Bool)
    (h : ([true, false].all fun m => [Rad.off, .light, .neutrinos].all fun r => [true, false].all fun e => [Eos.gamma, .polytrope, .table].all fun s => [true, false].all fun v =>
      [true, false].all fun b => [true, false].all fun o => [true, false].all fun l => [true, false].all fun z => [true, false].all fun u => p ⟨m, r, e, s, v, b, o, l, z, u⟩) = true) (c : Cfg) :
    p c = true := by
  obtain ⟨m, r, e, s, v, b, o, l, z, u⟩ := c
  have hb : ∀ b : Bool, b ∈ [true, false] := by decide
  have hr : ∀ r : Rad, r ∈ [Rad.off, .light, .neutrinos] := by intro r; cases r <;> decide
  have hs : ∀ s : Eos, s ∈ [Eos.gamma, .polytrope, .table] := by intro s; cases s <;> decide
  simp only [List.all_eq_true] at h
  exact h m (hb m) r (hr r) e (hb e) s (hs s) v (hb v) b (hb b) o (hb o) l (hb l) z (hb z) u (hb u)

/-- Datasets of a dump (other than the header) that `load_dump` is not meant to use. -/
def unused : List Name := [.rz_r_orig_hist, .rz_z_orig_hist, .osc_rz_r_orig_hist, .osc_rz_z_orig_hist]

/-- The arrays of a dump. -/
def dumpArrays : List Name :=
  [.P, .divb, .PRESS, .ENT, .TEMP, .CS2, .Qvisc, .Qcoul, .fail_save, .jcon, .Nsph, .nph, .Jrad, .dtau_scatt, .dtau_tot, .dtau_avg, .Nem, .Nabs, .Nsc, .tau_cool, .Rmunu, .Nem_phys, .Nabs_phys, .radG_int,
    .nuLnu, .local_angles, .Gnu, .local_Ns, .local_wsqr, .local_moments, .local_osc_count, .rz_r_orig_hist, .rz_z_orig_hist, .osc_rz_r_orig_hist, .osc_rz_z_orig_hist]

/-- Configurations with angular distributions as intended: only with neutrinos, and oscillations only together with them. -/
def Cfg.Angles (c : Cfg) : Prop := (c.oscillations = true ∨ c.localAngles = true) → c.rad = .neutrinos ∧ c.localAngles = true

instance (c : Cfg) : Decidable c.Angles := by unfold Cfg.Angles; infer_instance

/-- **C194 (full claim).** Every dump of every build loads, and all its arrays are loaded but for the histograms. -/
def FullC194 : Prop := ∀ c : Cfg, c.Valid → ∃ l, loadDump (write c) = some l ∧ ∀ n ∈ dumpArrays, n ∉ unused → written c n = true → n ∈ l

/-- **C194 (which dumps load; partial).** A dump loads exactly if it is a full one and the options on angular distributions are set for neutrinos, with oscillations only together with the
distributions. Missing: reduced dumps, which never load. -/
theorem C194_loads_partial (c : Cfg) (h : c.Valid) : (loadDump (write c)).isSome = true ↔ c.full = true ∧ c.Angles := by
  have := all_cfg (fun c => decide (c.Valid → ((loadDump (write c)).isSome = true ↔ c.full = true ∧ c.Angles))) (by decide +kernel) c
  exact of_decide_eq_true this h

/-- **C194 (content; partial).** When it loads, all arrays written are loaded but for the histograms and the sound speed, and nothing that was not written. Missing: the sound speed, which is looked for
under another name. -/
theorem C194_content_partial (c : Cfg) (h : c.Valid) (l : List Name) (hl : loadDump (write c) = some l) :
    (∀ n ∈ dumpArrays, n ∉ unused → n ≠ .CS2 → written c n = true → n ∈ l) ∧ (∀ n ∈ l, written c n = true) ∧ Name.CS2 ∉ l := by
  have key := all_cfg (fun c => !decide c.Valid || match loadDump (write c) with
    | none => true
    | some l => (dumpArrays.all fun n => unused.contains n || n == .CS2 || !written c n || l.contains n) && l.all (written c) && !l.contains .CS2) (by decide +kernel) c
  simp only [h, decide_true, Bool.not_true, Bool.false_or, hl, Bool.and_eq_true, List.all_eq_true, Bool.or_eq_true, List.contains_iff_mem, beq_iff_eq, Bool.not_eq_true'] at key
  obtain ⟨⟨k1, k2⟩, k3⟩ := key
  refine ⟨fun n hn hu hc hw => ?_, k2, fun hm => ?_⟩
  · rcases k1 n hn with ((k | k) | k) | k
    · exact absurd k hu
    · exact absurd k hc
    · rw [hw] at k; cases k
    · exact k
  · rw [List.contains_iff_mem.2 hm] at k3; cases k3

/-- **C194 (list of full dumps).** Every dump is listed as a full one, whatever it is. -/
theorem C194_listed (c : Cfg) : listedAsFull (write c) = true := rfl

/-- A torus with neutrinos, a table and oscillations. -/
def torus (full : Bool) : Cfg := ⟨true, .neutrinos, false, .table, true, false, true, true, true, full⟩

example : (torus true).Valid ∧ (torus true).full = true ∧ (torus true).Angles := by decide

/-- **C194 (negation).** A reduced dump of this run does not load. -/
theorem C194_full_false : ¬ FullC194 := by
  intro h
  obtain ⟨l, hl, -⟩ := h (torus false) (by decide)
  have : (loadDump (write (torus false))).isSome = false := by decide +kernel
  rw [hl] at this
  simp at this

/-- **C194 (negation, full dumps).** Nor does a full dump of a build for photons with angular distributions, which the build script accepts. -/
theorem C194_light : ∃ c : Cfg, c.Valid ∧ c.full = true ∧ loadDump (write c) = none := ⟨⟨true, .light, false, .gamma, false, false, false, true, false, true⟩, by decide, rfl, by decide +kernel⟩

end Nubhlight.DumpRead
