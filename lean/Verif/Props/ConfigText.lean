import Verif.Common
import Verif.Model.Config
import Verif.Props.Params
import Mathlib.Tactic.Linarith
import Mathlib.Tactic.NormNum
import Mathlib.Tactic.FieldSimp
import Mathlib.Tactic.Ring
import Mathlib.Algebra.Order.Field.Power

set_option autoImplicit false

/-!
# C160, C161: numbers in build scripts, changing a parameter file
-/

set_option linter.unusedSectionVars false

namespace Nubhlight.Config
open Nubhlight.Params

/-! ## C160 -/

theorem log_unique {r : ℚ} {k : ℤ} (h1 : (10 : ℚ) ^ k ≤ r) (h2 : r < (10 : ℚ) ^ (k + 1)) : Int.log 10 r = k := by
  have hr : 0 < r := lt_of_lt_of_le (by positivity) h1
  have a1 : k ≤ Int.log 10 r := (Int.zpow_le_iff_le_log (by norm_num) hr).1 (by exact_mod_cast h1)
  have a2 : Int.log 10 r < k + 1 := (Int.lt_zpow_iff_log_lt (by norm_num) hr).1 (by exact_mod_cast h2)
  omega

theorem log_le (r : ℚ) (hr : 0 < r) : (10 : ℚ) ^ Int.log 10 r ≤ r ∧ r < (10 : ℚ) ^ (Int.log 10 r + 1) := by
  constructor
  · have := Int.zpow_log_le_self (R := ℚ) (b := 10) (by norm_num) hr
    exact_mod_cast this
  · have := Int.lt_zpow_succ_log_self (R := ℚ) (b := 10) (by norm_num) r
    exact_mod_cast this

/-- **C160 (close).** A number written with `p` digits is off by at most half a unit of the last digit: relatively by at most `10 ^ (1 - p) / 2`. -/
theorem C160_close (p : ℕ) (q : ℚ) : |sig p q - q| ≤ |q| * (10 : ℚ) ^ (1 - (p : ℤ)) / 2 := by
  unfold sig
  by_cases hq : q = 0
  · simp [hq]
  rw [if_neg hq]
  simp only
  have hpos : 0 < |q| := abs_pos.2 hq
  obtain ⟨L, hL⟩ : ∃ L, L = Int.log 10 |q| := ⟨_, rfl⟩
  obtain ⟨l1, _⟩ := log_le |q| hpos
  rw [← hL] at l1 ⊢
  obtain ⟨e, he⟩ : ∃ e : ℤ, e = p - 1 - L := ⟨_, rfl⟩
  rw [← he]
  have h10 : (0 : ℚ) < 10 ^ e := by positivity
  have hr := abs_sub_round (q * 10 ^ e)
  have h1 : (round (q * 10 ^ e) : ℚ) / 10 ^ e - q = -((q * 10 ^ e - round (q * 10 ^ e)) / 10 ^ e) := by field_simp; ring
  rw [h1, abs_neg, abs_div, abs_of_pos h10]
  have h2 : |q * 10 ^ e - round (q * 10 ^ e)| / 10 ^ e ≤ (1 / 2) / 10 ^ e := by gcongr
  refine h2.trans ?_
  have h3 : (1 : ℚ) / 10 ^ e = 10 ^ L * 10 ^ (1 - (p : ℤ)) := by
    rw [← zpow_add₀ (by norm_num), one_div, ← zpow_neg]
    congr 1
    omega
  have h4 : (10 : ℚ) ^ L * 10 ^ (1 - (p : ℤ)) ≤ |q| * 10 ^ (1 - (p : ℤ)) := by gcongr
  have h5 : (1 : ℚ) / 2 / 10 ^ e = (1 / 10 ^ e) / 2 := by ring
  rw [h5, h3]
  linarith

/-- **C160 (exact).** A number is written exactly if and only if it is a whole number of at most `p` digits times a power of ten. -/
theorem C160_exact (p : ℕ) (hp : 1 ≤ p) (q : ℚ) : sig p q = q ↔ ∃ (m z : ℤ), |m| < 10 ^ p ∧ q = m * (10 : ℚ) ^ z := by
  by_cases hq : q = 0
  · subst hq
    simp only [sig, if_true, true_iff]
    exact ⟨0, 0, by positivity, by simp⟩
  have hpos : 0 < |q| := abs_pos.2 hq
  have hs : sig p q = (round (q * 10 ^ ((p : ℤ) - 1 - Int.log 10 |q|)) : ℚ) / 10 ^ ((p : ℤ) - 1 - Int.log 10 |q|) := by
    unfold sig
    rw [if_neg hq]
  obtain ⟨l1, l2⟩ := log_le |q| hpos
  generalize hL : Int.log 10 |q| = L at hs l1 l2
  constructor
  · intro h
    rw [hs] at h
    obtain ⟨M, hM⟩ : ∃ M, M = round (q * 10 ^ ((p : ℤ) - 1 - L)) := ⟨_, rfl⟩
    rw [← hM] at h
    have h10 : (0 : ℚ) < 10 ^ ((p : ℤ) - 1 - L) := by positivity
    have hqm : q = M * (10 : ℚ) ^ (-((p : ℤ) - 1 - L)) := by
      rw [zpow_neg, ← div_eq_mul_inv, h]
    refine ⟨M, -((p : ℤ) - 1 - L), ?_, hqm⟩
    have hM' : (M : ℚ) = q * 10 ^ ((p : ℤ) - 1 - L) := by
      rw [← h]; field_simp
    have : |(M : ℚ)| < 10 ^ p := by
      rw [hM', abs_mul, abs_of_pos h10]
      have : |q| * 10 ^ ((p : ℤ) - 1 - L) < 10 ^ (L + 1) * 10 ^ ((p : ℤ) - 1 - L) := by gcongr
      rw [← zpow_add₀ (by norm_num), show L + 1 + ((p : ℤ) - 1 - L) = (p : ℤ) by ring, zpow_natCast] at this
      exact this
    exact_mod_cast this
  · rintro ⟨m, z, hm, rfl⟩
    have hm0 : m ≠ 0 := by rintro rfl; simp at hq
    have hmq : (1 : ℚ) ≤ |(m : ℚ)| := by exact_mod_cast Int.one_le_abs hm0
    have hmp : |(m : ℚ)| < 10 ^ p := by exact_mod_cast hm
    have habs : |(m : ℚ) * 10 ^ z| = |(m : ℚ)| * 10 ^ z := by rw [abs_mul, abs_of_pos (by positivity : (0 : ℚ) < 10 ^ z)]
    rw [habs] at l1 l2
    -- the last digit is not after the unit of `m`
    have hLz : L ≤ z + p - 1 := by
      have : (10 : ℚ) ^ L < 10 ^ (z + p) := by
        refine lt_of_le_of_lt l1 ?_
        rw [zpow_add₀ (by norm_num), zpow_natCast, mul_comm]
        gcongr
      have := (zpow_lt_zpow_iff_right₀ (by norm_num : (1 : ℚ) < 10)).1 this
      omega
    obtain ⟨d, hd⟩ : ∃ d : ℕ, (d : ℤ) = z + p - 1 - L := ⟨(z + p - 1 - L).toNat, Int.toNat_of_nonneg (by omega)⟩
    have hx : (m : ℚ) * 10 ^ z * 10 ^ ((p : ℤ) - 1 - L) = ((m * 10 ^ d : ℤ) : ℚ) := by
      rw [mul_assoc, ← zpow_add₀ (by norm_num), show z + ((p : ℤ) - 1 - L) = (d : ℤ) by omega, zpow_natCast]
      push_cast
      ring
    rw [hs, hx, round_intCast, ← hx]
    field_simp

/-- **C160 (run-time; partial).** A run-time number with at most seven significant decimal digits arrives as it is; any other is changed, by at most five parts in ten million. Missing: the others. -/
theorem C160_runtime_partial (q : ℚ) : ((∃ (m z : ℤ), |m| < 10 ^ 7 ∧ q = m * (10 : ℚ) ^ z) → pctE q = q) ∧ |pctE q - q| ≤ |q| / 2000000 := by
  refine ⟨(C160_exact 7 (by norm_num) q).2, ?_⟩
  have := C160_close 7 q
  unfold pctE
  have h : (10 : ℚ) ^ (1 - ((7 : ℕ) : ℤ)) = 1 / 1000000 := by norm_num
  rw [h] at this
  linarith

/-- **C160 (compile-time; partial).** A compile-time number with at most six significant digits arrives as it is, so every whole number below a million. Missing: the others. -/
theorem C160_compile_partial (q : ℚ) : ((∃ (m z : ℤ), |m| < 10 ^ 6 ∧ q = m * (10 : ℚ) ^ z) → pctG q = q) ∧ ∀ n : ℤ, |n| < 1000000 → pctG n = n := by
  refine ⟨(C160_exact 6 (by norm_num) q).2, fun n hn => (C160_exact 6 (by norm_num) n).2 ⟨n, 0, by linarith, by simp⟩⟩

/-- **C160 (integers).** A whole number for an integer parameter arrives as it is; any other loses its fraction, towards zero. -/
theorem C160_integer (q : ℚ) : ((pctD q : ℚ) = q ↔ ∃ n : ℤ, q = n) ∧ |(pctD q : ℚ) - q| < 1 ∧ |(pctD q : ℚ)| ≤ |q| := by
  unfold pctD
  have f1 := Int.floor_le q
  have f2 := Int.lt_floor_add_one q
  have c1 := Int.le_ceil q
  have c2 := Int.ceil_lt_add_one q
  split_ifs with h
  · refine ⟨⟨fun h => ⟨_, h.symm⟩, ?_⟩, ?_, ?_⟩
    · rintro ⟨n, rfl⟩; simp
    · rw [abs_lt]; constructor <;> linarith
    · have : (0 : ℚ) ≤ ⌊q⌋ := by exact_mod_cast Int.floor_nonneg.2 h
      rw [abs_of_nonneg this, abs_of_nonneg h]; exact f1
  · push Not at h
    refine ⟨⟨fun h => ⟨_, h.symm⟩, ?_⟩, ?_, ?_⟩
    · rintro ⟨n, rfl⟩; simp
    · rw [abs_lt]; constructor <;> linarith
    · have : (⌈q⌉ : ℚ) ≤ 0 := by exact_mod_cast Int.ceil_le.2 (by simpa using h.le)
      rw [abs_of_nonpos this, abs_of_neg h]; linarith

/-- The full claim: a number given in a script is the number the program runs with. -/
def FullNumbers : Prop := ∀ q : ℚ, pctE q = q ∧ pctG q = q

/-- **C160 (negation).** The default index of the gas, five thirds, arrives as 1.666667; the restart interval of the shock tube, 12837612, as 12837610. A compile-time 1000001 arrives as a million. -/
theorem C160_changed : pctE (5 / 3) = 1666667 / 1000000 ∧ pctE 12837612 = 12837610 ∧ pctG 1000001 = 1000000 := by
  have l1 : Int.log 10 |(5 / 3 : ℚ)| = 0 := log_unique (by norm_num [abs_of_pos]) (by norm_num [abs_of_pos])
  have l2 : Int.log 10 |(12837612 : ℚ)| = 7 := log_unique (by norm_num [abs_of_pos]) (by norm_num [abs_of_pos])
  have l3 : Int.log 10 |(1000001 : ℚ)| = 6 := log_unique (by norm_num [abs_of_pos]) (by norm_num [abs_of_pos])
  refine ⟨?_, ?_, ?_⟩
  · unfold pctE sig
    rw [l1]
    norm_num [round_eq]
  · unfold pctE sig
    rw [l2]
    norm_num [round_eq]
  · unfold pctG sig
    rw [l3]
    norm_num [round_eq]

theorem C160_full_false : ¬ FullNumbers := by
  intro h
  have h1 := (h (5 / 3)).1
  rw [C160_changed.1] at h1
  norm_num at h1

/-- Values of the core script that arrive: a tenth, the mass of the hole, the largest frequency. -/
example : pctE (1 / 10) = 1 / 10 ∧ pctE (1989 * 10 ^ 31) = 1989 * 10 ^ 31 ∧ pctE (10 ^ 20) = 10 ^ 20 := by
  refine ⟨(C160_runtime_partial _).1 ⟨1, -1, by norm_num, by norm_num⟩, (C160_runtime_partial _).1 ⟨1989, 31, by norm_num, by norm_num⟩,
    (C160_runtime_partial _).1 ⟨1, 20, by norm_num, by norm_num⟩⟩

/-! ## C161 -/

theorem before_eq (key a rest : List Char) (hk : key ≠ []) (h : ¬ key <:+: a ++ key.dropLast) : before key (a ++ (key ++ rest)) = a := by
  induction a with
  | nil =>
    obtain ⟨c, k, rfl⟩ := List.exists_cons_of_ne_nil hk
    simp only [List.nil_append, List.cons_append, before]
    rw [if_pos]
    rw [List.isPrefixOf_iff_prefix]
    exact ⟨rest, rfl⟩
  | cons c a ih =>
    simp only [List.cons_append, before]
    have hn : ¬ key.isPrefixOf (c :: (a ++ (key ++ rest))) = true := by
      rw [List.isPrefixOf_iff_prefix]
      intro hp
      apply h
      have hsplit : key.dropLast ++ [key.getLast hk] = key := List.dropLast_append_getLast hk
      have h2 : (c :: a) ++ key.dropLast <+: c :: (a ++ (key ++ rest)) := by
        refine ⟨key.getLast hk :: rest, ?_⟩
        conv_rhs => rw [← hsplit]
        simp
      refine (List.prefix_of_prefix_length_le hp h2 ?_).isInfix
      have := List.length_pos_iff.2 hk
      simp only [List.cons_append, List.length_cons, List.length_append, List.length_dropLast]
      omega
    rw [if_neg hn, ih]
    intro hi
    exact h (hi.trans (List.suffix_cons c _).isInfix)

theorem tokens_infix (l : List Char) : ∀ (cur t : List Char), t ∈ tokensAux l cur → t <:+: cur.reverse ++ l := by
  induction l with
  | nil =>
    intro cur t h
    simp only [tokensAux] at h
    split_ifs at h with hc
    · simp at h
    · rw [List.mem_singleton] at h
      rw [h, List.append_nil]
  | cons c l ih =>
    intro cur t h
    simp only [tokensAux] at h
    split_ifs at h with h1 h2
    · have := ih [] t h
      simp only [List.reverse_nil, List.nil_append] at this
      exact this.trans (((List.suffix_cons c l).trans (List.suffix_append _ _)).isInfix)
    · rcases List.mem_cons.1 h with rfl | h
      · exact (List.prefix_append _ _).isInfix
      · have := ih [] t h
        simp only [List.reverse_nil, List.nil_append] at this
        exact this.trans (((List.suffix_cons c l).trans (List.suffix_append _ _)).isInfix)
    · have := ih (c :: cur) t h
      simpa using this

/-- The name a line sets is in the line. -/
theorem entry_within {l : List Char} {e : List Char × Kind × List Char} (h : entry l = some e) : e.1 <:+: l := by
  have h' := h
  unfold entry at h
  split at h
  · simp at h
  · split_ifs at h
    split at h
    · rename_i _ ht
      obtain ⟨k, _, rfl⟩ := Option.map_eq_some_iff.1 h
      simp only
      have := tokens_infix _ [] _ (show _ ∈ tokensAux _ [] from by
        unfold tokens at ht
        rw [ht]
        exact List.mem_cons_of_mem _ List.mem_cons_self)
      simpa using this
    · simp at h

theorem apply_agree (table : List (List Char)) (i : ℕ) (e : List Char × Kind × List Char) (s s' : St) (hn : s'.nset = s.nset) (hv : ∀ j, j ≠ i → s'.val j = s.val j) :
    (apply table s' e).nset = (apply table s e).nset ∧ ∀ j, j ≠ i → (apply table s' e).val j = (apply table s e).val j := by
  unfold apply
  cases getParam table e.1 with
  | none => exact ⟨hn, hv⟩
  | some k =>
    refine ⟨by simp [hn], fun j hj => ?_⟩
    simp only [Function.update_apply]
    split_ifs
    · rfl
    · exact hv j hj

theorem fold_agree (table : List (List Char)) (i : ℕ) (E : List (List Char × Kind × List Char)) : ∀ (s s' : St), s'.nset = s.nset → (∀ j, j ≠ i → s'.val j = s.val j) →
    (E.foldl (apply table) s').nset = (E.foldl (apply table) s).nset ∧ ∀ j, j ≠ i → (E.foldl (apply table) s').val j = (E.foldl (apply table) s).val j := by
  induction E with
  | nil => intro s s' h1 h2; exact ⟨h1, h2⟩
  | cons e E ih =>
    intro s s' h1 h2
    obtain ⟨a1, a2⟩ := apply_agree table i e s s' h1 h2
    exact ih _ _ a1 a2

theorem fold_other (table : List (List Char)) (i : ℕ) (E : List (List Char × Kind × List Char)) (h : ∀ e ∈ E, getParam table e.1 ≠ some i) (s : St) :
    (E.foldl (apply table) s).val i = s.val i := by
  induction E generalizing s with
  | nil => rfl
  | cons e E ih =>
    rw [List.foldl_cons, ih (fun x hx => h x (List.mem_cons_of_mem _ hx))]
    unfold apply
    cases hg : getParam table e.1 with
    | none => rfl
    | some k =>
      have : k ≠ i := fun hk => h e List.mem_cons_self (hk ▸ hg)
      simp only
      rw [Function.update_of_ne (Ne.symm this)]

/-- **C161 (one parameter; partial).** The program accepts a file; the name to be changed occurs, in any place, only in the line that sets it, and there not before its place. Then the changed file is
accepted, the parameter has the new value with its old type, and every other parameter is as before. Missing: names that occur in other lines (`C161_full_false`). -/
theorem C161_changed_partial (table : List (List Char)) (hT : Ordered table) (A B : List (List Char)) (K : Kind) (key old val rest : List Char) (hk : Word key) (hv : Word val)
    (hA : ∀ l ∈ A ++ B, ¬ key <:+: l) (hfirst : ¬ key <:+: (tag K ++ [' ']) ++ key.dropLast) (hl : entry ((tag K ++ [' ']) ++ (key ++ rest)) = some (key, K, old))
    (hC : Clean table ((A ++ ((tag K ++ [' ']) ++ (key ++ rest)) :: B).filterMap entry)) (i : ℕ) (hi : table[i]? = some key) (f : ℕ → Option (Kind × List Char))
    (hf : readParams table (A ++ ((tag K ++ [' ']) ++ (key ++ rest)) :: B) = some f) :
    ∃ f', readParams table (changeR key val (A ++ ((tag K ++ [' ']) ++ (key ++ rest)) :: B)) = some f' ∧ f' i = some (K, val) ∧ ∀ j, j ≠ i → f' j = f j := by
  have hmap : ∀ L : List (List Char), (∀ l ∈ L, ¬ key <:+: l) → changeR key val L = L := by
    intro L hL
    unfold changeR
    conv_rhs => rw [← List.map_id L]
    apply List.map_congr_left
    intro l hl
    rw [if_neg (by simpa [within] using hL l hl)]
    rfl
  have hin : within key ((tag K ++ [' ']) ++ (key ++ rest)) = true := by
    simp only [within, decide_eq_true_eq]
    exact ⟨tag K ++ [' '], rest, by simp⟩
  have hnew : changeR key val (A ++ ((tag K ++ [' ']) ++ (key ++ rest)) :: B) = A ++ (tag K ++ ([' '] ++ (key ++ ([' '] ++ (['='] ++ ([' '] ++ (val ++ (['\n'] ++ [])))))))) :: B := by
    have h1 : changeR key val (A ++ ((tag K ++ [' ']) ++ (key ++ rest)) :: B) = changeR key val A ++
        (before key ((tag K ++ [' ']) ++ (key ++ rest)) ++ key ++ [' ', '=', ' '] ++ val ++ ['\n']) :: changeR key val B := by
      unfold changeR
      rw [List.map_append, List.map_cons, if_pos hin]
    rw [h1, hmap A fun l hl => hA l (List.mem_append.2 (Or.inl hl)), hmap B fun l hl => hA l (List.mem_append.2 (Or.inr hl)), before_eq key _ rest hk.1 hfirst]
    simp
  have hent : entry (tag K ++ ([' '] ++ (key ++ ([' '] ++ (['='] ++ ([' '] ++ (val ++ (['\n'] ++ [])))))))) = some (key, K, val) :=
    (C66_line K key ['='] val [' '] [' '] [' '] ['\n'] [] hk ⟨by decide, by decide⟩ hv ⟨by decide, by decide⟩ ⟨by decide, by decide⟩ ⟨by decide, by decide⟩ ⟨by decide, by decide⟩).1
  have hg : getParam table key = some i := (lookup_exact hT key (Or.inl (List.mem_of_getElem? hi)) i).2 hi
  have hB : ∀ e ∈ B.filterMap entry, getParam table e.1 ≠ some i := by
    intro e he hge
    obtain ⟨l, hl1, hl2⟩ := List.mem_filterMap.1 he
    have hc := hC e (List.mem_filterMap.2 ⟨l, by simp [hl1], hl2⟩)
    have := (lookup_exact hT e.1 hc i).1 hge
    rw [hi] at this
    have hek : key = e.1 := Option.some.inj this
    exact hA l (List.mem_append.2 (Or.inr hl1)) (hek ▸ entry_within hl2)
  rw [hnew]
  unfold readParams at hf ⊢
  rw [List.filterMap_append, List.filterMap_cons_some hl, List.foldl_append, List.foldl_cons] at hf
  rw [List.filterMap_append, List.filterMap_cons_some hent, List.foldl_append, List.foldl_cons]
  simp only at hf ⊢
  obtain ⟨s, hs⟩ : ∃ s, s = (A.filterMap entry).foldl (apply table) ⟨fun _ => none, 0⟩ := ⟨_, rfl⟩
  rw [← hs] at hf ⊢
  have hap : ∀ v, apply table s (key, K, v) = ⟨Function.update s.val i (some (K, v)), s.nset + 1⟩ := by
    intro v
    simp [apply, hg]
  rw [hap] at hf ⊢
  obtain ⟨g1, g2⟩ := fold_agree table i (B.filterMap entry) ⟨Function.update s.val i (some (K, old)), s.nset + 1⟩ ⟨Function.update s.val i (some (K, val)), s.nset + 1⟩ rfl (by
    intro j hj
    simp only [Function.update_of_ne hj])
  split_ifs at hf with hc
  rw [if_pos (by rw [g1]; exact hc)]
  refine ⟨_, rfl, ?_, ?_⟩
  · rw [fold_other table i _ hB]
    simp
  · intro j hj
    rw [← Option.some.inj hf]
    exact g2 j hj

/-- The final time in a file as the build writes it. -/
example : ∃ f', readParams [nm "tf", nm "dt"] (changeR (nm "tf") (nm "0.1") [nm "# COORDINATES", nm "[dbl] tf = 1.000000e+00", nm "[dbl] dt = 1.000000e-06"]) = some f' ∧
    f' 0 = some (.dbl, nm "0.1") ∧ f' 1 = some (.dbl, nm "1.000000e-06") := by
  have hr : ∃ f, readParams [nm "tf", nm "dt"] [nm "# COORDINATES", nm "[dbl] tf = 1.000000e+00", nm "[dbl] dt = 1.000000e-06"] = some f ∧ f 1 = some (.dbl, nm "1.000000e-06") := by
    have : (readParams [nm "tf", nm "dt"] [nm "# COORDINATES", nm "[dbl] tf = 1.000000e+00", nm "[dbl] dt = 1.000000e-06"]).map (fun f => f 1) = some (some (.dbl, nm "1.000000e-06")) := by
      decide +kernel
    obtain ⟨f, h1, h2⟩ := Option.map_eq_some_iff.1 this
    exact ⟨f, h1, h2⟩
  obtain ⟨f, h1, h2⟩ := hr
  have hl : nm "[dbl] tf = 1.000000e+00" = (tag .dbl ++ [' ']) ++ (nm "tf" ++ nm " = 1.000000e+00") := by decide +kernel
  rw [hl] at h1 ⊢
  obtain ⟨f', g1, g2, g3⟩ := C161_changed_partial [nm "tf", nm "dt"] (by
      intro i j hi hj hij
      have : i = 1 ∧ j = 0 := by simp at hi; omega
      obtain ⟨rfl, rfl⟩ := this
      exact (by decide +kernel : ¬ nm "dt" <+: nm "tf")) [nm "# COORDINATES"] [nm "[dbl] dt = 1.000000e-06"] .dbl (nm "tf") (nm "1.000000e+00") (nm "0.1") (nm " = 1.000000e+00") ⟨by decide +kernel, by decide +kernel⟩
    ⟨by decide +kernel, by decide +kernel⟩ (by decide +kernel) (by decide +kernel) (by decide +kernel) (by
      have : ∀ e ∈ ([nm "# COORDINATES"] ++ ((tag Kind.dbl ++ [' ']) ++ (nm "tf" ++ nm " = 1.000000e+00")) :: [nm "[dbl] dt = 1.000000e-06"]).filterMap entry, e.1 ∈ [nm "tf", nm "dt"] := by
        decide +kernel
      exact fun e he => Or.inl (this e he)) 0 rfl f h1
  exact ⟨f', g1, g2, by rw [g3 1 (by decide), h2]⟩

/-- **C161 (negation, two parameters set).** Changing the spin of the hole changes every line with an `a` after its first: the index of the gas and the shape of the grid become the spin, and the
program accepts the file. -/
theorem C161_spin :
    (readParams [nm "a", nm "poly_alpha", nm "gam"] (changeR (nm "a") (nm "0.9")
      [nm "[dbl] a = 5.000000e-01\n", nm "[dbl] poly_alpha = 1.400000e+01\n", nm "[dbl] gam = 1.666667e+00\n"])).map (fun f => (f 0, f 1, f 2)) =
      some (some (.dbl, nm "0.9"), some (.dbl, nm "0.9"), some (.dbl, nm "0.9")) := by decide +kernel

/-- **C161 (negation, one parameter lost).** Changing the Courant number replaces the line of the one for cooling too: the program accepts the file and the latter is never set. -/
theorem C161_courant :
    (readParams [nm "cour", nm "cour_cool"] (changeR (nm "cour") (nm "0.4") [nm "[dbl] cour = 9.000000e-01\n", nm "[dbl] cour_cool = 2.500000e-01\n"])).map (fun f => (f 0, f 1)) =
      some (some (.dbl, nm "0.4"), none) := by decide +kernel

/-- The full claim: in an accepted file with a line for the parameter, changing it changes no other. -/
def FullChange : Prop := ∀ (table lines : List (List Char)) (key val : List Char) (i : ℕ) (f : ℕ → Option (Kind × List Char)), Ordered table → table[i]? = some key → Word val →
  readParams table lines = some f → ∃ f', readParams table (changeR key val lines) = some f' ∧ ∀ j, j ≠ i → f' j = f j

theorem C161_full_false : ¬ FullChange := by
  intro h
  have h0 : (readParams [nm "cour", nm "cour_cool"] [nm "[dbl] cour = 9.000000e-01\n", nm "[dbl] cour_cool = 2.500000e-01\n"]).map (fun f => f 1) = some (some (.dbl, nm "2.500000e-01")) := by
    decide +kernel
  obtain ⟨f, h1, h2⟩ := Option.map_eq_some_iff.1 h0
  obtain ⟨f', h3, h4⟩ := h [nm "cour", nm "cour_cool"] [nm "[dbl] cour = 9.000000e-01\n", nm "[dbl] cour_cool = 2.500000e-01\n"] (nm "cour") (nm "0.4") 0 f (by
    intro i j hi hj hij
    have : i = 1 ∧ j = 0 := by simp at hi; omega
    obtain ⟨rfl, rfl⟩ := this
    exact (by decide +kernel : ¬ nm "cour_cool" <+: nm "cour")) rfl ⟨by decide +kernel, by decide +kernel⟩ h1
  obtain ⟨g, h5, h6⟩ := Option.map_eq_some_iff.1 C161_courant
  rw [h5] at h3
  have hg := Option.some.inj h3
  have h7 := h4 1 (by decide)
  have h8 : g 1 = none := (Prod.mk.inj h6).2
  rw [← hg, h8, h2] at h7
  simp at h7

end Nubhlight.Config
