import Verif.Model.Spectrum

set_option autoImplicit false

/-!
# Model of the luminosities worked out from the recorded spectra

script/analysis/luminosities.py:12-25, script/analysis/extract_lnu.py:39-45,79 and the frequencies of a header, script/analysis/hdf5_to_dict.py:159-166. The array is
that of `Model/Spectrum`, as the program has filled it (core/diag.c:417-474). Numbers are real.
-/

namespace Nubhlight.Luminosity
open Nubhlight.Spectrum

/-- `np.linspace(lo, hi, n)`: `n` points with both ends; a single point is `lo`. -/
noncomputable def linspace (lo hi : ℝ) (n i : ℕ) : ℝ := if n ≤ 1 then lo else lo + i * ((hi - lo) / ((n : ℝ) - 1))

/-- `integrate.trapz(y, x=x)` over `n` points. -/
noncomputable def trapz (n : ℕ) (x y : ℕ → ℝ) : ℝ := ∑ i ∈ Finset.range (n - 1), (x (i + 1) - x i) * ((y i + y (i + 1)) / 2)

/-- `nulnu_isotropic` of a first index, script/analysis/luminosities.py:17: sum over both angles. -/
noncomputable def isotropic (c : Cfg) (A : Arr) (a : ℤ) (n : ℕ) : ℝ := ∑ b ∈ Finset.Ico (0 : ℤ) c.nth ×ˢ Finset.Ico (0 : ℤ) c.nphi, A (a, b.1, b.2, n)

/-- `lnu` of the script, lines 13-15. -/
noncomputable def lnu (c : Cfg) (n : ℕ) : ℝ := linspace c.lnumin c.lnumax c.nnu n

/-- `luminosity_tot` of a first index, lines 19-21. -/
noncomputable def luminosity (c : Cfg) (A : Arr) (a : ℤ) : ℝ := trapz c.nnu (lnu c) (isotropic c A a)

/-- `rate_tot` of a first index, lines 18, 22-24. -/
noncomputable def rate (c : Cfg) (A : Arr) (a : ℤ) : ℝ := trapz c.nnu (lnu c) fun n => isotropic c A a n / c.hpl / Real.exp (lnu c n)

/-- Logarithm of `hdr['nu'][n]`, script/analysis/hdf5_to_dict.py:162-164, and of `lnu` in script/analysis/extract_lnu.py:42-45. -/
noncomputable def centre (c : Cfg) (n : ℕ) : ℝ := c.lnumin + (1 / 2 + n) * dlnu c

/-- What the file of `extract_lnu.py` says to do (line 79): sum over the angles and integrate over its `lnu`, here with `trapz`. -/
noncomputable def bolometric (c : Cfg) (A : Arr) (a : ℤ) : ℝ := trapz c.nnu (centre c) (isotropic c A a)

end Nubhlight.Luminosity
