import Verif.Common
import Verif.Model.DumpReset
import Mathlib.Tactic.FieldSimp
import Mathlib.Tactic.LinearCombination

set_option autoImplicit false

/-!
# C65: reset of interval diagnostics
-/

set_option linter.unusedSectionVars false

namespace Nubhlight.DumpReset

variable {K : Type*} [Field K]

/-- **C65 (all but one).** The reset clears every word of every interval diagnostic other than the integrated radiation four-force. -/
theorem C65_others_partial (s : Sizes) (a : Diag → ℕ → K) (d : Diag) (hd : d ≠ .radGint) (w : ℕ) (hw : w < words s d) : reset s a d w = 0 := by
  have : words s d = cleared s d := by cases d <;> first | rfl | exact absurd rfl hd
  unfold reset clear
  rw [if_pos (this ▸ hw)]

/-- The averages that the dumps should contain for one word: the sum of what was added since the previous dump, over the output interval; `acc`
is what was added before the list. -/
def averages (DTd : K) (w : ℕ) : List (Ev K) → K → List (Option K)
  | [], _ => []
  | .step g :: l, acc => averages DTd w l (acc + g w)
  | .dump full :: l, acc => (if full then some (acc / DTd) else none) :: averages DTd w l 0

/-- What the dumps contain for a word that is not cleared. -/
def carried (DTd : K) (w : ℕ) : List (Ev K) → K → List (Option K)
  | [], _ => []
  | .step g :: l, acc => carried DTd w l (acc + g w)
  | .dump full :: l, acc => (if full then some (acc / DTd) else none) :: carried DTd w l (if full then acc / DTd else acc)

/-- **C65 (cleared words; partial).** For a word of the integrated four-force among the first `RAD_NUM_TYPES * N123G`, every full dump of every history contains the average of
exactly the interval since the previous dump. Missing: the other words (`C65_stale_words`, `C65_full_false`). -/
theorem C65_averages_partial (m : ℕ) (DTd : K) (w : ℕ) (hw : w < m) (l : List (Ev K)) : ∀ a : ℕ → K,
    (run m DTd l a).2.map (fun o => o.map fun f => f w) = averages DTd w l (a w) := by
  induction l with
  | nil => intro a; rfl
  | cons e l ih =>
    intro a
    cases e with
    | step g => simp only [run, averages]; rw [ih]
    | dump full =>
      simp only [run, averages, List.map_cons]
      rw [ih]
      cases full <;> simp [dump, clear, hw]

/-- **C65 (other words).** A word beyond that keeps the value of the last dump: every full dump adds to the interval what was written before. -/
theorem C65_stale_words (m : ℕ) (DTd : K) (w : ℕ) (hw : m ≤ w) (l : List (Ev K)) : ∀ a : ℕ → K,
    (run m DTd l a).2.map (fun o => o.map fun f => f w) = carried DTd w l (a w) := by
  have hw' : ¬ w < m := not_lt.2 hw
  induction l with
  | nil => intro a; rfl
  | cons e l ih =>
    intro a
    cases e with
    | step g => simp only [run, carried]; rw [ih]
    | dump full =>
      simp only [run, carried, List.map_cons]
      rw [ih]
      cases full <;> simp [dump, clear, hw']

/-- **C65 (which zones).** With `ncomp` words per zone and `RAD_NUM_TYPES` types, a word of zone `z` is cleared exactly if its number is below types times zones; no word of a zone `z` with
`types * zones ≤ z * ncomp` is. -/
theorem C65_zones (s : Sizes) (a : Diag → ℕ → K) (z c : ℕ) :
    (at_ (4 + s.radcomp) z c < s.types * s.n → reset s a .radGint (at_ (4 + s.radcomp) z c) = 0) ∧
      (s.types * s.n ≤ z * (4 + s.radcomp) → reset s a .radGint (at_ (4 + s.radcomp) z c) = a .radGint (at_ (4 + s.radcomp) z c)) := by
  unfold reset clear cleared
  constructor
  · intro h
    simp only
    rw [if_pos h]
  · intro h
    simp only
    rw [if_neg]
    unfold at_
    omega

/-- **C65 (neutrinos, light).** With three neutrino types nothing is cleared in the second half of the zones; for photons, in the last three quarters. -/
theorem C65_halves (s : Sizes) (a : Diag → ℕ → K) (z c : ℕ) :
    (s.types = 3 → s.radcomp = 2 → s.n ≤ 2 * z → reset s a .radGint (at_ 6 z c) = a .radGint (at_ 6 z c)) ∧
      (s.types = 1 → s.radcomp = 0 → s.n ≤ 4 * z → reset s a .radGint (at_ 4 z c) = a .radGint (at_ 4 z c)) := by
  constructor
  · intro h1 h2 h3
    have := (C65_zones s a z c).2 (by rw [h1, h2]; omega)
    rwa [h2] at this
  · intro h1 h2 h3
    have := (C65_zones s a z c).2 (by rw [h1, h2]; omega)
    rwa [h2] at this

/-- The full claim: the reset clears everything. -/
def FullReset : Prop := ∀ (s : Sizes) (a : Diag → ℕ → ℚ) (d : Diag) (w : ℕ), w < words s d → reset s a d w = 0

theorem C65_full_false : ¬ FullReset := by
  intro h
  have := h ⟨2, 3, 0, 3, 0, 2, 0, 0⟩ (fun _ _ => 1) .radGint 6 (by decide)
  revert this
  decide +kernel

/-- The consequence in the output: two dumps with the same addition in both intervals differ (first 1/2, second 3/4), at a word of the second of two zones. -/
example : (run (3 * 2) (2 : ℚ) [.step fun _ => 1, .dump true, .step fun _ => 1, .dump true] fun _ => 0).2.map (fun o => o.map fun f => f 6) =
    [some (1 / 2), some (3 / 4)] := by
  rw [C65_stale_words _ _ _ (by norm_num)]
  norm_num [carried]

end Nubhlight.DumpReset
