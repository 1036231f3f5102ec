import Verif.Model.Passive
import Verif.Props.Reconstruct
import Verif.Props.Weno
import Verif.Props.Mp5
import Verif.Common
import Mathlib.Tactic.FieldSimp
import Mathlib.Tactic.Ring
import Mathlib.Tactic.Linarith

set_option autoImplicit false
set_option linter.unusedSectionVars false

/-! # Theorems: composition is carried with the mass -/

namespace Nubhlight.Passive

open Reconstruct

variable {K : Type*} [Field K] [LinearOrder K] [IsStrictOrderedRing K]

/-! ## Recovery -/

/-- **C170.** Recovery inverts the conserved variable of both kinds of passive scalar: with the time component of the four-velocity
`gamma / lapse` and non-degenerate gas, the scalar that went in comes out. -/
theorem C170_roundtrip (ty : PassType) (lapse g gamma rho phi : K) (hl : lapse ≠ 0) (hg : g ≠ 0) (hgam : gamma ≠ 0) (hr : rho ≠ 0) :
    recoverPass ty lapse g gamma (rhoFlux g rho (gamma / lapse)) (passFlux ty g rho phi (gamma / lapse)) = phi := by
  cases ty <;> simp only [recoverPass, rhoFlux, passFlux] <;> field_simp

/-- **C170.** And back: the conserved variable of what is recovered is the one it was recovered from. -/
theorem C170_roundtrip_conserved (ty : PassType) (lapse g gamma rho U : K) (hl : lapse ≠ 0) (hg : g ≠ 0) (hgam : gamma ≠ 0) (hr : rho ≠ 0) :
    passFlux ty g rho (recoverPass ty lapse g gamma (rhoFlux g rho (gamma / lapse)) U) (gamma / lapse) = U := by
  cases ty <;> simp only [recoverPass, rhoFlux, passFlux] <;> field_simp

example : recoverPass .number (1/2 : ℚ) 3 2 (rhoFlux 3 5 (2 / (1/2))) (passFlux .number 3 5 (1/4) (2 / (1/2))) = 1/4 ∧
    recoverPass .intrinsic (1/2 : ℚ) 3 2 (rhoFlux 3 5 (2 / (1/2))) (passFlux .intrinsic 3 5 (1/4) (2 / (1/2))) = 1/4 := by
  constructor <;> norm_num [recoverPass, rhoFlux, passFlux]

/-! ## Floors -/

lemma catchYe_mem (lo hi tol y : K) (h : lo ≤ hi - tol / 100) (ht : 0 < tol) : lo ≤ catchYe lo hi tol y ∧ catchYe lo hi tol y < hi := by
  have : 0 < tol / 100 := by positivity
  unfold catchYe
  split_ifs with h1 h2
  · exact ⟨le_refl _, by linarith⟩
  · exact ⟨h, by linarith⟩
  · exact ⟨not_lt.mp h1, by simpa using h2⟩

lemma catchYe_id (lo hi tol y : K) (h1 : lo ≤ y) (h2 : y < hi) : catchYe lo hi tol y = y := by
  unfold catchYe
  rw [if_neg (not_lt.mpr h1), if_neg (not_le.mpr h2)]

lemma catchAtm_mem (a : K) : 0 ≤ catchAtm a ∧ catchAtm a ≤ 1 := by
  unfold catchAtm
  simp only
  split_ifs <;> constructor <;> (try simp only [gt_iff_lt, not_lt] at *) <;> first | linarith | (exfalso; linarith [zero_le_one (α := K)]) | norm_num

lemma catchAtm_id (a : K) (h1 : 0 ≤ a) (h2 : a ≤ 1) : catchAtm a = a := by
  unfold catchAtm
  simp only
  rw [if_neg (not_lt.mpr h1), if_neg (not_lt.mpr h2)]

/-- What a fix-up is to do to variable `q`, independent of how the table of fix-ups is built: electron fractions of table builds and their
emitted counterpart are brought into the table, the atmosphere marker into [0, 1], everything else is left alone. -/
def specFix (table mks : Bool) (lo hi tol : K) (q : ℕ) (v : K) : K :=
  if table ∧ (q = 8 ∨ q = 9) then catchYe lo hi tol v else if table ∧ mks ∧ q = 10 then catchAtm v else v

lemma fixStep_value (types : ℕ → PassType) (table mks : Bool) (lo hi tol : K) (pre pv : ℕ → K) (e q : ℕ) :
    (let pv := if types e = PassType.number then Function.update pv (8 + e) (pre (8 + e)) else pv
     match initPassives table mks lo hi tol e with
     | some f => Function.update pv f.1 (f.2 (pv f.1))
     | none => pv) q =
      if q = 8 + e then specFix table mks lo hi tol q (if types e = .number then pre q else pv q) else pv q := by
  obtain ⟨w, hw⟩ : ∃ w, w = (if types e = PassType.number then Function.update pv (8 + e) (pre (8 + e)) else pv) := ⟨_, rfl⟩
  have h1 : w (8 + e) = if types e = .number then pre (8 + e) else pv (8 + e) := by
    rw [hw]; split_ifs <;> simp
  have h2 : ∀ q, q ≠ 8 + e → w q = pv q := by
    intro q hq
    rw [hw]; split_ifs
    · rw [Function.update_of_ne hq]
    · rfl
  simp only
  rw [← hw]
  have hsp : ∀ v, (match initPassives table mks lo hi tol e with
      | some f => f.1 = 8 + e ∧ f.2 v = specFix table mks lo hi tol (8 + e) v
      | none => specFix table mks lo hi tol (8 + e) v = v) := by
    intro v
    unfold initPassives specFix
    by_cases ht : table = true
    · by_cases e0 : e = 0
      · subst e0; simp [ht]
      · by_cases e1 : e = 1
        · subst e1; simp [ht]
        · have n8 : ¬ (table = true ∧ (8 + e = 8 ∨ 8 + e = 9)) := by omega
          by_cases e2 : e = 2 ∧ mks = true
          · obtain ⟨rfl, hm⟩ := e2; simp [ht, hm]
          · have n10 : ¬ (table = true ∧ mks = true ∧ 8 + e = 10) := by
              rintro ⟨_, hm, h⟩; exact e2 ⟨by omega, hm⟩
            rw [if_neg n8, if_neg n10]
            simp [ht, e0, e1, e2]
    · simp [ht]
  have hs := hsp (w (8 + e))
  by_cases hq : q = 8 + e
  · subst hq
    rw [if_pos rfl, ← h1]
    cases hf : initPassives table mks lo hi tol e with
    | none => rw [hf] at hs; exact hs.symm
    | some f =>
      rw [hf] at hs
      simp only at hs ⊢
      rw [hs.1, Function.update_self, hs.2]
  · rw [if_neg hq, ← h2 q hq]
    cases hf : initPassives table mks lo hi tol e with
    | none => rfl
    | some f =>
      rw [hf] at hs
      simp only at hs ⊢
      rw [Function.update_of_ne (by rw [hs.1]; exact hq)]

lemma fixup_value (types : ℕ → PassType) (table mks : Bool) (lo hi tol : K) (n : ℕ) (pre pv : ℕ → K) (q : ℕ) :
    fixupPassive types (initPassives table mks lo hi tol) n pre pv q =
      if 8 ≤ q ∧ q < 8 + n then specFix table mks lo hi tol q (if types (q - 8) = .number then pre q else pv q) else pv q := by
  induction n with
  | zero => rw [if_neg (by omega)]; rfl
  | succ n ih =>
    have hstep : fixupPassive types (initPassives table mks lo hi tol) (n + 1) pre pv q =
        (let pv := if types n = PassType.number then Function.update (fixupPassive types (initPassives table mks lo hi tol) n pre pv) (8 + n)
           (pre (8 + n)) else fixupPassive types (initPassives table mks lo hi tol) n pre pv
         match initPassives table mks lo hi tol n with
         | some f => Function.update pv f.1 (f.2 (pv f.1))
         | none => pv) q := by
      unfold fixupPassive
      rw [List.range_succ, List.foldl_append, List.foldl_cons, List.foldl_nil]
      rfl
    rw [hstep, fixStep_value, ih]
    by_cases hq : q = 8 + n
    · subst hq
      have e8 : 8 + n - 8 = n := by omega
      have n1 : ¬ (8 ≤ 8 + n ∧ 8 + n < 8 + n) := by omega
      have n2 : 8 ≤ 8 + n ∧ 8 + n < 8 + (n + 1) := by omega
      rw [if_pos rfl, if_neg n1, if_pos n2, e8]
    · have h1 : (8 ≤ q ∧ q < 8 + (n + 1)) ↔ (8 ≤ q ∧ q < 8 + n) := by omega
      simp only [h1, if_neg hq]

/-- **C170.** Floors and passive variables, for any number of them of any kind: afterwards a number is what it was before the floors, however much
mass they added, except that electron fractions of builds with a table are brought into the table and the atmosphere marker into [0, 1]; a
variable per volume is likewise only brought into range; the fluid's own variables are not touched. Values in range are kept. -/
theorem C170_floors (types : ℕ → PassType) (table mks : Bool) (lo hi tol : K) (n : ℕ) (pre pv : ℕ → K) (h : lo ≤ hi - tol / 100) (ht : 0 < tol) :
    let out := fixupPassive types (initPassives table mks lo hi tol) n pre pv
    let inp := fun q => if types (q - 8) = .number then pre q else pv q
    (∀ q, ¬ (8 ≤ q ∧ q < 8 + n) → out q = pv q) ∧
    (∀ q, 8 ≤ q → q < 8 + n → (table = false ∨ 11 ≤ q ∨ (q = 10 ∧ mks = false)) → out q = inp q) ∧
    (∀ q, 8 ≤ q → q < 8 + n → table = true → q ≤ 9 →
      lo ≤ out q ∧ out q < hi ∧ (lo ≤ inp q → inp q < hi → out q = inp q) ∧ (inp q < lo → out q = lo) ∧ (hi ≤ inp q → out q = hi - tol / 100)) ∧
    (10 < 8 + n → table = true → mks = true → 0 ≤ out 10 ∧ out 10 ≤ 1 ∧ (0 ≤ inp 10 → inp 10 ≤ 1 → out 10 = inp 10)) := by
  intro out inp
  have hv := fixup_value types table mks lo hi tol n pre pv
  refine ⟨?_, ?_, ?_, ?_⟩
  · intro q hq
    simp only [out]
    rw [hv, if_neg hq]
  · intro q h1 h2 hc
    simp only [out]
    rw [hv, if_pos ⟨h1, h2⟩]
    unfold specFix
    rw [if_neg, if_neg]
    · rintro ⟨a, b, c⟩
      rcases hc with hc | hc | ⟨_, hc⟩
      · simp [hc] at a
      · omega
      · simp [hc] at b
    · rintro ⟨a, b⟩
      rcases hc with hc | hc | ⟨hc, _⟩
      · simp [hc] at a
      · omega
      · omega
  · intro q h1 h2 hta h9
    have e : out q = catchYe lo hi tol (inp q) := by
      simp only [out]
      rw [hv, if_pos ⟨h1, h2⟩]
      unfold specFix
      rw [if_pos ⟨hta, by omega⟩]
    rw [e]
    have m := catchYe_mem lo hi tol (inp q) h ht
    have htp : 0 < tol / 100 := by positivity
    refine ⟨m.1, m.2, fun a b => catchYe_id lo hi tol _ a b, fun a => ?_, fun a => ?_⟩
    · unfold catchYe; rw [if_pos a]
    · unfold catchYe; rw [if_neg (by push Not; linarith), if_pos a]
  · intro hn hta hm
    have e : out 10 = catchAtm (inp 10) := by
      simp only [out]
      rw [hv, if_pos ⟨by omega, hn⟩]
      unfold specFix
      rw [if_neg (by omega), if_pos ⟨hta, hm, rfl⟩]
    rw [e]
    exact ⟨(catchAtm_mem _).1, (catchAtm_mem _).2, fun a b => catchAtm_id _ a b⟩

/-- Mass added by floors dilutes nothing: Ye 0.3 before, 0.1 after mixing with floor material, 0.3 in the end; 0.9 is brought into a table to 0.6. -/
example : fixupPassive (fun _ => .number) (initPassives true true (1/20 : ℚ) (3/5) (1/10)) 3
      (fun q => if q = 8 then 3/10 else if q = 9 then 9/10 else 2) (fun _ => 1/10) 8 = 3/10 ∧
    fixupPassive (fun _ => .number) (initPassives true true (1/20 : ℚ) (3/5) (1/10)) 3
      (fun q => if q = 8 then 3/10 else if q = 9 then 9/10 else 2) (fun _ => 1/10) 9 = 599/1000 ∧
    fixupPassive (fun _ => .number) (initPassives true true (1/20 : ℚ) (3/5) (1/10)) 3
      (fun q => if q = 8 then 3/10 else if q = 9 then 9/10 else 2) (fun _ => 1/10) 10 = 1 := by
  refine ⟨?_, ?_, ?_⟩ <;> rw [fixup_value] <;> norm_num [specFix, catchYe, catchAtm]

/-! ## Uniform composition -/

/-- The schemes with which the program runs. -/
def runs (s : Scheme) : Prop := s ≠ .ppm ∧ s ≠ .other

lemma reconstruct_const (s : Scheme) (hs : runs s) (row : ℤ → K) (c : K) (i : ℤ) (h : ∀ m, row m = c) : reconstruct s row i = .ok c c := by
  cases s with
  | linear =>
    have hl := C04_linear_exact .mc row i (by simp [h])
    simp only [reconstruct]
    simp only [linZone, slopeLimBy, h]
    simp
  | weno =>
    have hq := C05_quadratic_exact (K := K) c 0 0
    simp only [zero_mul, add_zero] at hq
    simp only [reconstruct, h, hq]
  | mp5 =>
    have hq := C06_linear_exact (K := K) c 0
    simp only [mul_zero, sub_zero, add_zero, zero_div] at hq
    simp only [reconstruct, h, hq]
  | ppm => exact absurd rfl hs.1
  | other => exact absurd rfl hs.2

lemma reconstruct_ok (s : Scheme) (hs : runs s) (row : ℤ → K) (i : ℤ) : ∃ l r, reconstruct s row i = .ok l r := by
  cases s with
  | linear => exact ⟨_, _, rfl⟩
  | weno => exact ⟨_, _, rfl⟩
  | mp5 => exact ⟨_, _, rfl⟩
  | ppm => exact absurd rfl hs.1
  | other => exact absurd rfl hs.2

lemma faceVals_const (s : Scheme) (hs : runs s) (row : ℤ → K) (c : K) (i : ℤ) (h : ∀ m, row m = c) : faceVals s row i = some (c, c) := by
  unfold faceVals
  rw [reconstruct_const s hs row c (i - 1) h, reconstruct_const s hs row c i h]

lemma faceVals_some (s : Scheme) (hs : runs s) (row : ℤ → K) (i : ℤ) : ∃ v, faceVals s row i = some v := by
  unfold faceVals
  obtain ⟨a, b, h1⟩ := reconstruct_ok s hs row (i - 1)
  obtain ⟨a', b', h2⟩ := reconstruct_ok s hs row i
  rw [h1, h2]
  exact ⟨_, rfl⟩

lemma passFace_const (small c : K) (f : Face K) : passFace small .number f c c = c * massFace small f := by
  simp only [passFace, massFace, lrToFlux, passFlux, rhoFlux]
  split_ifs
  · simp
  · simp only; ring

lemma newPass_const (b : Build K) (hs : runs b.scheme) (x : Gas K) (c : K) (i j k : ℤ) :
    newPass b .number x (fun _ _ _ => c) (fun _ _ _ => c) i j k =
      some (c * newMass b x i j k + c * (x.Dt / b.dx1 *
        ((mass1 b x (i + 1) j k - massFace b.small (x.f1 (i + 1) j k)) - (mass1 b x i j k - massFace b.small (x.f1 i j k))))) := by
  have hfv : ∀ (row : ℤ → K) (m : ℤ), (∀ n, row n = c) → faceVals b.scheme row m = some (c, c) := fun row m h => faceVals_const b.scheme hs row c m h
  simp only [newPass, pass1, pass2, pass3]
  simp only [hfv (fun _ => c) _ (fun _ => rfl), Option.map_some, Option.bind_some, passFace_const]
  congr 1
  simp only [newMass, Conserve.updZone, mass2, mass3, passFlux, rhoFlux]
  have h2 : ∀ m, (if atPole b m = true then (0 : K) else c * massFace b.small (x.f2 i m k)) = c * (if atPole b m = true then 0 else massFace b.small (x.f2 i m k)) := by
    intro m; split_ifs <;> simp
  rw [h2, h2]
  ring

/-- **C170.** A zone of uniform composition after `advance`, for every scheme, every gas and every zone: the composition is unchanged but for the
mass that the boundaries refused to let in, whose scalar they let in nevertheless. -/
theorem C170_zone (b : Build K) (hs : runs b.scheme) (x : Gas K) (c : K) (i j k : ℤ) :
    advanceZone b .number x (fun _ _ _ => c) (fun _ _ _ => c) i j k =
      some (if newMass b x i j k ≤ 0 ∨ x.fails i j k then c else
        c * (1 + x.Dt / b.dx1 * ((mass1 b x (i + 1) j k - massFace b.small (x.f1 (i + 1) j k)) -
          (mass1 b x i j k - massFace b.small (x.f1 i j k))) / newMass b x i j k)) := by
  unfold advanceZone
  rw [newPass_const b hs]
  simp only [Option.map_some]
  congr 1
  split_ifs with h
  · rfl
  · push Not at h
    have hp : newMass b x i j k ≠ 0 := ne_of_gt h.1
    simp only [recoverPass]
    generalize newMass b x i j k = M at *
    field_simp

/-- No boundary stops inflow of mass in this call: where there are boundaries without inflow, mass leaves through them or stays. -/
def noneStopped (b : Build K) (x : Gas K) : Prop :=
  ∀ j k, (b.mks = true → b.guards.x1l = true → massFace b.small (x.f1 0 j k) ≤ 0) ∧
    (b.mks = true → b.guards.x1r = true → 0 ≤ massFace b.small (x.f1 b.dims.n1 j k))

lemma mass1_free (b : Build K) (x : Gas K) (h : noneStopped b x) (i j k : ℤ) : mass1 b x i j k = massFace b.small (x.f1 i j k) := by
  unfold mass1
  simp only
  have h1 : (if b.mks = true ∧ b.guards.x1l = true ∧ i = 0 then min (massFace b.small (x.f1 i j k)) 0 else massFace b.small (x.f1 i j k)) =
      massFace b.small (x.f1 i j k) := by
    split_ifs with c
    · obtain ⟨c1, c2, rfl⟩ := c
      exact min_eq_left ((h j k).1 c1 c2)
    · rfl
  rw [h1]
  split_ifs with c
  · obtain ⟨c1, c2, rfl⟩ := c
    exact max_eq_left ((h j k).2 c1 c2)
  · rfl

/-- Boundary zones are copied from active zones. -/
def fromActive (b : Build K) (src : Source) : Prop := ∀ i j k, active b.dims i j k = false → active b.dims (src i j k).1 (src i j k).2.1 (src i j k).2.2 = true

lemma advance_const (b : Build K) (hs : runs b.scheme) (x : Gas K) (hx : noneStopped b x) (c : K) (i j k : ℤ) :
    advanceZone b .number x (fun _ _ _ => c) (fun _ _ _ => c) i j k = some c := by
  rw [C170_zone b hs]
  congr 1
  split_ifs
  · rfl
  · rw [mass1_free b x hx, mass1_free b x hx]; ring

lemma half_const (b : Build K) (hs : runs b.scheme) (fx : K → K) (src : Source) (hsrc : fromActive b src) (x : Gas K) (hx : noneStopped b x)
    (c : K) (hc : fx c = c) (out : Field3 K) (h : half b .number fx src x (fun _ _ _ => c) (fun _ _ _ => c) out) : out = fun _ _ _ => c := by
  have ha : ∀ i j k, active b.dims i j k = true → out i j k = c := by
    intro i j k hi
    obtain ⟨v, hv, ho⟩ := h.1 i j k hi
    rw [advance_const b hs x hx] at hv
    injection hv with hv
    rw [ho, ← hv, hc]
  funext i j k
  by_cases hi : active b.dims i j k = true
  · exact ha i j k hi
  · rw [h.2 i j k hi]
    exact ha _ _ _ (hsrc i j k (by simpa using hi))

/-- **C170, full statement.** A number carried with the mass that is the same everywhere stays the same everywhere, in every step of every run. -/
def FullC170 (K : Type*) [Field K] [LinearOrder K] [IsStrictOrderedRing K] : Prop :=
  ∀ (b : Build K) (fx : K → K) (src : Source) (xs : List (Gas K × Gas K)) (c : K) (q : Field3 K), fromActive b src → fx c = c → runs b.scheme →
    Run b .number fx src xs (fun _ _ _ => c) q → ∀ i j k, q i j k = c

/-- **C170, the part that holds.** Over any number of steps with any gas (shocks, failed recoveries, floors, poles, any of the schemes, any grid
and any boundaries that copy), a uniform number stays exactly uniform as long as no boundary has to stop inflow of mass. Missing: `C170_full_false`. -/
theorem C170_uniform_partial (b : Build K) (hs : runs b.scheme) (fx : K → K) (src : Source) (hsrc : fromActive b src) (c : K) (hc : fx c = c)
    (xs : List (Gas K × Gas K)) (hx : ∀ x ∈ xs, noneStopped b x.1 ∧ noneStopped b x.2) (q : Field3 K)
    (h : Run b .number fx src xs (fun _ _ _ => c) q) : ∀ i j k, q i j k = c := by
  obtain ⟨p, hp⟩ : ∃ p : Field3 K, p = fun _ _ _ => c := ⟨_, rfl⟩
  rw [← hp] at h
  induction h with
  | nil p => intro i j k; rw [hp]
  | cons x xs p q r hstep hrun ih =>
    obtain ⟨m, h1, h2⟩ := hstep
    have hxx := hx x (by simp)
    subst hp
    have e1 := half_const b hs fx src hsrc x.1 hxx.1 c hc m h1
    subst e1
    have e2 := half_const b hs fx src hsrc x.2 hxx.2 c hc q h2
    exact ih (fun y hy => hx y (by simp [hy])) e2

/-- **C170.** Nothing above is about runs that do not exist: with a scheme the program runs with and boundaries that copy from active zones,
every sequence of gas states has exactly one run from any initial composition. -/
theorem C170_runs_exist (b : Build K) (hs : runs b.scheme) (ty : PassType) (fx : K → K) (src : Source) (hsrc : fromActive b src)
    (xs : List (Gas K × Gas K)) (p : Field3 K) : ∃! q, Run b ty fx src xs p q := by
  have hhalf : ∀ (x : Gas K) (pi pb : Field3 K), ∃! out, half b ty fx src x pi pb out := by
    intro x pi pb
    have hz : ∀ i j k, ∃ v, advanceZone b ty x pi pb i j k = some v := by
      intro i j k
      unfold advanceZone newPass pass1 pass2 pass3
      obtain ⟨v1, h1⟩ := faceVals_some b.scheme hs (fun m => pb m j k) i
      obtain ⟨v2, h2⟩ := faceVals_some b.scheme hs (fun m => pb m j k) (i + 1)
      obtain ⟨v3, h3⟩ := faceVals_some b.scheme hs (fun m => pb i m k) j
      obtain ⟨v4, h4⟩ := faceVals_some b.scheme hs (fun m => pb i m k) (j + 1)
      obtain ⟨v5, h5⟩ := faceVals_some b.scheme hs (fun m => pb i j m) k
      obtain ⟨v6, h6⟩ := faceVals_some b.scheme hs (fun m => pb i j m) (k + 1)
      rw [h1, h2, h3, h4, h5, h6]
      exact ⟨_, rfl⟩
    choose v hv using hz
    refine ⟨fun i j k => if active b.dims i j k = true then fx (v i j k) else
      fx (v (src i j k).1 (src i j k).2.1 (src i j k).2.2), ⟨?_, ?_⟩, ?_⟩
    · intro i j k hi
      exact ⟨v i j k, hv i j k, if_pos hi⟩
    · intro i j k hi
      have ha := hsrc i j k (by simpa using hi)
      simp only
      rw [if_neg hi, if_pos ha]
    · intro out ho
      have ha : ∀ i j k, active b.dims i j k = true → out i j k = fx (v i j k) := by
        intro i j k hi
        obtain ⟨w, hw, hout⟩ := ho.1 i j k hi
        rw [hv i j k] at hw
        injection hw with hw
        rw [hout, hw]
      funext i j k
      by_cases hi : active b.dims i j k = true
      · rw [if_pos hi, ha i j k hi]
      · rw [if_neg hi, ho.2 i j k hi, ha _ _ _ (hsrc i j k (by simpa using hi))]
  induction xs generalizing p with
  | nil =>
    refine ⟨p, Run.nil p, ?_⟩
    intro q hq
    cases hq
    rfl
  | cons x xs ih =>
    obtain ⟨m, hm, hmu⟩ := hhalf x.1 p p
    obtain ⟨q, hq, hqu⟩ := hhalf x.2 p m
    obtain ⟨r, hr, hru⟩ := ih q
    refine ⟨r, Run.cons x xs p q r ⟨m, hm, hq⟩ hr, ?_⟩
    intro r' hr'
    cases hr' with
    | cons _ _ _ q' _ hst hrun =>
      obtain ⟨m', hm', hq'⟩ := hst
      have := hmu m' hm'
      subst this
      have := hqu q' hq'
      subst this
      exact hru r' hrun

/-- **C170.** What happens at an outer boundary that stops inflow: in every zone next to it with mass coming in, the number grows, by the fraction
of the mass refused. (The inner boundary is the mirror image.) -/
theorem C170_outflow (b : Build K) (hs : runs b.scheme) (hm : b.mks = true) (hg : b.guards.x1r = true) (hn : 1 < b.dims.n1) (x : Gas K) (c : K)
    (hc : 0 < c) (j k : ℤ) (hin : massFace b.small (x.f1 b.dims.n1 j k) < 0) (hD : 0 < x.Dt) (hdx : 0 < b.dx1)
    (hM : 0 < newMass b x (b.dims.n1 - 1) j k) (hf : x.fails (b.dims.n1 - 1) j k = false) :
    ∃ v, advanceZone b .number x (fun _ _ _ => c) (fun _ _ _ => c) (b.dims.n1 - 1) j k = some v ∧
      v = c * (1 + (-massFace b.small (x.f1 b.dims.n1 j k)) * x.Dt / b.dx1 / newMass b x (b.dims.n1 - 1) j k) ∧ c < v := by
  have e0 : mass1 b x (b.dims.n1 - 1) j k = massFace b.small (x.f1 (b.dims.n1 - 1) j k) := by
    unfold mass1
    simp only
    rw [if_neg (by rintro ⟨_, _, h⟩; omega), if_neg (by rintro ⟨_, _, h⟩; omega)]
  have e1 : mass1 b x (b.dims.n1 - 1 + 1) j k = 0 := by
    have : b.dims.n1 - 1 + 1 = b.dims.n1 := by omega
    rw [this]
    unfold mass1
    simp only
    have n1 : ¬ (b.mks = true ∧ b.guards.x1l = true ∧ b.dims.n1 = 0) := by rintro ⟨_, _, h⟩; omega
    rw [if_neg n1, if_pos ⟨hm, hg, trivial⟩]
    exact max_eq_right hin.le
  have hi1 : b.dims.n1 - 1 + 1 = b.dims.n1 := by omega
  refine ⟨_, C170_zone b hs x c _ j k, ?_, ?_⟩
  · rw [if_neg (by push Not; exact ⟨hM, by simp [hf]⟩), e0, e1, hi1]
    ring
  · rw [if_neg (by push Not; exact ⟨hM, by simp [hf]⟩), e0, e1, hi1]
    have : 0 < x.Dt / b.dx1 * ((0 - massFace b.small (x.f1 b.dims.n1 j k)) - (massFace b.small (x.f1 (b.dims.n1 - 1) j k) -
        massFace b.small (x.f1 (b.dims.n1 - 1) j k))) / newMass b x (b.dims.n1 - 1) j k := by
      apply div_pos _ hM
      apply mul_pos (div_pos hD hdx)
      linarith
    nlinarith

/-! ## The full statement is false -/

/-- A build of two radial zones, both radial boundaries without inflow. -/
def wBuild : Build ℚ := ⟨⟨2, 1, 1⟩, 1, 1, 1, 1 / 10 ^ 20, .weno, true, ⟨true, true, true, true⟩⟩

/-- Gas at rest but for slow inward motion in the outer zone, on the left of the outer face (the boundary zone has been set to rest). -/
def wGas : Gas ℚ :=
  let rest : Side ℚ := ⟨1, 1, 0, 0, 0⟩
  let inward : Side ℚ := ⟨1, 1, -1/10, 0, 0⟩
  { f1 := fun i _ _ => ⟨if i = 2 then inward else rest, rest, 1⟩
    f2 := fun _ _ _ => ⟨rest, rest, 1⟩
    f3 := fun _ _ _ => ⟨rest, rest, 1⟩
    rho := fun _ _ _ => 1
    ut := fun _ _ _ => 1
    g := fun _ _ _ => 1
    lapse := fun _ _ _ => 1
    gamma := fun _ _ _ => 1
    fails := fun _ _ _ => false
    Dt := 1 / 10 }

/-- Boundary zones copy the nearest zone. -/
def wSrc : Source := fun i _ _ => (if i < 1 then 0 else 1, 0, 0)

lemma wSrc_active : fromActive wBuild wSrc := by
  intro i j k _
  simp only [wSrc, active, wBuild]
  split_ifs <;> simp

lemma wMass : massFace wBuild.small (wGas.f1 2 0 0) = -1 / 20 := by
  norm_num [massFace, lrToFlux, rhoFlux, ctop, wGas, wBuild]

lemma wNew : newMass wBuild wGas 1 0 0 = 1 := by
  norm_num [newMass, Conserve.updZone, mass1, mass2, mass3, atPole, massFace, lrToFlux, rhoFlux, ctop, wGas, wBuild]

/-- **C170.** The full statement is false: gas of composition 0.4 that drifts inwards next to the outer boundary is left, after the first half of
a step, with 0.402. -/
theorem C170_outflow_witness :
    advanceZone wBuild .number wGas (fun _ _ _ => 2/5) (fun _ _ _ => 2/5) 1 0 0 = some (201/500) := by
  rw [C170_zone wBuild ⟨by decide, by decide⟩]
  have e2 : mass1 wBuild wGas (1 + 1) 0 0 = 0 := by
    norm_num [mass1, massFace, lrToFlux, rhoFlux, ctop, wGas, wBuild]
  have e1 : mass1 wBuild wGas 1 0 0 - massFace wBuild.small (wGas.f1 1 0 0) = 0 := by
    norm_num [mass1, massFace, lrToFlux, rhoFlux, ctop, wGas, wBuild]
  have h2 : massFace wBuild.small (wGas.f1 (1 + 1) 0 0) = -1 / 20 := wMass
  rw [wNew, e2, e1, h2]
  norm_num [wGas, wBuild]

/-- The same gas at rest. -/
def wRest : Gas ℚ := { wGas with f1 := fun _ _ _ => ⟨⟨1, 1, 0, 0, 0⟩, ⟨1, 1, 0, 0, 0⟩, 1⟩ }

lemma wRest_free : noneStopped wBuild wRest := by
  intro j k
  constructor <;> intro _ _ <;> norm_num [massFace, lrToFlux, rhoFlux, ctop, wRest, wBuild]

theorem C170_full_false : ¬ FullC170 ℚ := by
  intro h
  obtain ⟨q, hq, _⟩ := C170_runs_exist wBuild ⟨by decide, by decide⟩ .number id wSrc wSrc_active [(wRest, wGas)] (fun _ _ _ => (2/5 : ℚ))
  have hall := h wBuild id wSrc [(wRest, wGas)] (2/5) q wSrc_active rfl ⟨by decide, by decide⟩ hq 1 0 0
  cases hq with
  | cons _ _ _ q' _ hst hrun =>
    cases hrun
    obtain ⟨m, h1, h2⟩ := hst
    have hm := half_const wBuild ⟨by decide, by decide⟩ id wSrc wSrc_active wRest wRest_free (2/5) rfl m h1
    subst hm
    obtain ⟨v, hv, hqv⟩ := h2.1 1 0 0 (by decide)
    simp only at hv
    rw [C170_outflow_witness] at hv
    injection hv with hv
    rw [hqv, ← hv] at hall
    norm_num at hall

/-- The hypotheses of `C170_uniform_partial` and `C170_outflow` are met: gas at rest, and the gas of the witness. -/
example : ∃! q, Run wBuild .number id wSrc [(wRest, wRest), (wRest, wRest)] (fun _ _ _ => (2/5 : ℚ)) q :=
  C170_runs_exist wBuild ⟨by decide, by decide⟩ .number id wSrc wSrc_active _ _
example : massFace wBuild.small (wGas.f1 wBuild.dims.n1 0 0) < 0 ∧ 0 < newMass wBuild wGas (wBuild.dims.n1 - 1) 0 0 ∧
    wBuild.mks = true ∧ wBuild.guards.x1r = true ∧ (1 : ℤ) < wBuild.dims.n1 :=
  ⟨by have := wMass; simp only [wBuild] at this ⊢; rw [this]; norm_num, by
    have := wNew; simp only [wBuild] at this ⊢; norm_num at this ⊢; rw [this]; norm_num, rfl, rfl, by simp [wBuild]⟩

end Nubhlight.Passive
