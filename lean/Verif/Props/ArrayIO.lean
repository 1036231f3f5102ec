import Verif.Props.Decomp
import Verif.Model.ArrayIO

set_option autoImplicit false

/-! # C141: arrays in files -/

set_option linter.unusedSectionVars false

namespace Nubhlight.ArrayIO

/-! ## Storing -/

theorem put_eq {α : Type*} (p : ℕ) (v : α) :
    ∀ (l : List (ℕ × α)) (f : ℕ → α), (∀ x ∈ l, x.1 = p → x.2 = v) → ((∃ x ∈ l, x.1 = p) ∨ f p = v) → put f l p = v
  | [], f, _, h => by
    rcases h with ⟨x, hx, _⟩ | h
    · simp at hx
    · simpa [put] using h
  | x :: l, f, hv, h => by
    have e : put f (x :: l) = put (Function.update f x.1 x.2) l := rfl
    rw [e]
    refine put_eq p v l _ (fun y hy => hv y (List.mem_cons_of_mem _ hy)) ?_
    by_cases hx : x.1 = p
    · right
      rw [← hx, Function.update_self]
      exact hv x List.mem_cons_self hx
    · rcases h with ⟨y, hy, hp⟩ | h
      · rcases List.mem_cons.1 hy with rfl | hy
        · exact absurd hp hx
        · exact Or.inl ⟨y, hy, hp⟩
      · right
        rw [Function.update_of_ne (Ne.symm hx), h]

theorem put_ne {α : Type*} (p : ℕ) : ∀ (l : List (ℕ × α)) (f : ℕ → α), (∀ x ∈ l, x.1 ≠ p) → put f l p = f p
  | [], _, _ => rfl
  | x :: l, f, h => by
    have e : put f (x :: l) = put (Function.update f x.1 x.2) l := rfl
    rw [e, put_ne p l _ (fun y hy => h y (List.mem_cons_of_mem _ hy)), Function.update_of_ne (Ne.symm (h x List.mem_cons_self))]

theorem put_append {α : Type*} (f : ℕ → α) (a b : List (ℕ × α)) : put f (a ++ b) = put (put f a) b := List.foldl_append

theorem writeAll_put {V R : Type*} (rnd : V → V) (k : Kind) (slab : R → Slab) (mem : R → ℕ → V) :
    ∀ (order : List R) (file : ℕ → Option V),
      writeAll rnd k slab mem order file = put file (order.flatMap fun r => (points (slab r)).map fun p => (p.1, some (conv rnd k (mem r p.2))))
  | [], _ => rfl
  | r :: l, file => by
    have e : writeAll rnd k slab mem (r :: l) file = writeAll rnd k slab mem l (writeRank rnd k (slab r) (mem r) file) := rfl
    rw [e, writeAll_put rnd k slab mem l, List.flatMap_cons, put_append]
    rfl

/-! ## Positions -/

theorem mem_multi : ∀ (cs i : List ℕ), i ∈ multi cs ↔ List.Forall₂ (· < ·) i cs
  | [], i => by cases i <;> simp [multi]
  | c :: cs, i => by
    cases i with
    | nil => simp [multi]
    | cons a i =>
      simp only [multi, List.mem_flatMap, List.mem_range, List.mem_map, List.forall₂_cons]
      constructor
      · rintro ⟨x, hx, y, hy, h⟩
        rw [List.cons.injEq] at h
        obtain ⟨rfl, rfl⟩ := h
        exact ⟨hx, (mem_multi cs y).1 hy⟩
      · rintro ⟨h1, h2⟩
        exact ⟨a, h1, i, (mem_multi cs i).2 h2, rfl⟩

theorem flat_lt : ∀ (ds i : List ℕ), List.Forall₂ (· < ·) i ds → flat ds i < ds.prod
  | [], _, h => by cases h; simp [flat]
  | d :: ds, _, h => by
    cases h with
    | @cons a _ i _ h1 h2 =>
      have h3 := flat_lt ds i h2
      have h4 : (a + 1) * ds.prod ≤ d * ds.prod := Nat.mul_le_mul_right _ h1
      rw [List.prod_cons, flat]
      rw [Nat.add_mul] at h4
      omega

theorem flat_inj : ∀ (ds i j : List ℕ), List.Forall₂ (· < ·) i ds → List.Forall₂ (· < ·) j ds → flat ds i = flat ds j → i = j
  | [], _, _, hi, hj, _ => by cases hi; cases hj; rfl
  | d :: ds, _, _, hi, hj, h => by
    cases hi with
    | @cons a _ i _ h1 h2 =>
      cases hj with
      | @cons b _ j _ h3 h4 =>
        have l1 := flat_lt ds i h2
        have l2 := flat_lt ds j h4
        rw [flat, flat] at h
        have hP : 0 < ds.prod := by omega
        have hab : a = b := by
          have e1 : (flat ds i + ds.prod * a) / ds.prod = a := by rw [Nat.add_mul_div_left _ _ hP, Nat.div_eq_of_lt l1]; omega
          have e2 : (flat ds j + ds.prod * b) / ds.prod = b := by rw [Nat.add_mul_div_left _ _ hP, Nat.div_eq_of_lt l2]; omega
          rw [← e1, ← e2]
          congr 1
          rw [Nat.mul_comm, Nat.mul_comm ds.prod b]
          omega
        subst hab
        rw [flat_inj ds i j h2 h4 (by omega)]

theorem range_mul (c P : ℕ) : ((List.range c).flatMap fun i => (List.range P).map fun x => i * P + x) = List.range (c * P) := by
  induction c with
  | zero => simp
  | succ c ih => rw [List.range_succ, List.flatMap_append, ih, Nat.succ_mul, List.range_add]; simp

theorem multi_flat : ∀ cs : List ℕ, (multi cs).map (flat cs) = List.range cs.prod
  | [] => rfl
  | c :: cs => by
    rw [multi, List.map_flatMap, List.prod_cons, ← range_mul c cs.prod]
    congr 1
    funext i
    rw [List.map_map, ← multi_flat cs, List.map_map]
    rfl

/-! ## One dimension -/

/-- One dimension of an array: length over all ranks, number of ranks, ghost zones on each side, and whether it has one more point than zones. -/
structure Dim where
  tot : ℕ
  cpus : ℕ
  ghosts : ℕ
  face : Bool

namespace Dim

def n (d : Dim) : ℕ := d.tot / d.cpus
def ftot (d : Dim) : ℕ := if d.face then d.tot + 1 else d.tot
def start (d : Dim) (c : ℕ) : ℕ := Decomp.start d.tot d.cpus c
def more (d : Dim) (c : ℕ) : ℕ := if d.face then extra d.tot d.cpus c else 0
def count (d : Dim) (c : ℕ) : ℕ := d.n + d.more c
def size (d : Dim) (c : ℕ) : ℕ := d.n + d.more c + 2 * d.ghosts
/-- The rank that has the point `g`. -/
def own (d : Dim) (g : ℕ) : ℕ := min (g / d.n) (d.cpus - 1)
/-- Where that rank has it, ghost zones aside. -/
def loc (d : Dim) (g : ℕ) : ℕ := g - d.own g * d.n

/-- The zones are divided evenly among the ranks. -/
def Good (d : Dim) : Prop := 0 < d.cpus ∧ d.cpus ∣ d.tot ∧ (d.face = true → 0 < d.tot)

variable {d : Dim} (h : d.Good)
include h

theorem tot_eq : d.tot = d.cpus * d.n := (Nat.mul_div_cancel' h.2.1).symm

theorem start_eq (c : ℕ) : d.start c = c * d.n := (Decomp.C55_equal d.tot d.cpus h.1 h.2.1 c).2

theorem more_eq (c : ℕ) (hc : c < d.cpus) : d.more c = if d.face = true ∧ c = d.cpus - 1 then 1 else 0 := by
  have h1 : Decomp.stop d.tot d.cpus c = (c + 1) * d.n := by rw [Decomp.stop_eq_start]; exact start_eq h (c + 1)
  unfold more extra
  by_cases hf : d.face = true
  · have hn : 0 < d.n := by
      have := h.2.2 hf
      rw [tot_eq h] at this
      exact Nat.pos_of_mul_pos_left this
    rw [if_pos hf, h1, Nat.add_sub_cancel]
    refine if_congr ?_ rfl rfl
    constructor
    · intro e
      refine ⟨hf, ?_⟩
      rw [tot_eq h] at e
      have := Nat.eq_of_mul_eq_mul_right hn e
      omega
    · rintro ⟨_, e⟩
      rw [tot_eq h, e, Nat.sub_add_cancel h.1]
  · rw [if_neg hf, if_neg (fun x => hf x.1)]

theorem point (c i : ℕ) (hc : c < d.cpus) (hi : i < d.count c) : d.start c + i < d.ftot ∧ d.own (d.start c + i) = c ∧ d.loc (d.start c + i) = i := by
  have h0 := tot_eq h
  have h1 := start_eq h c
  have h2 := more_eq h c hc
  have hle : (c + 1) * d.n ≤ d.tot := by rw [h0]; exact Nat.mul_le_mul_right _ hc
  rw [Nat.add_mul, Nat.one_mul] at hle
  unfold count at hi
  have hown : d.own (d.start c + i) = c := by
    unfold own
    rw [h1]
    by_cases hn : d.n = 0
    · rw [h2, hn] at hi
      split_ifs at hi with hf
      · have := h.2.2 hf.1
        rw [h0, hn] at this
        omega
      · omega
    · have hn' : 0 < d.n := Nat.pos_of_ne_zero hn
      by_cases hi' : i < d.n
      · have : (c * d.n + i) / d.n = c := by rw [Nat.add_comm, Nat.add_mul_div_right _ _ hn', Nat.div_eq_of_lt hi']; omega
        rw [this]
        omega
      · rw [h2] at hi
        split_ifs at hi with hf
        · have : i = d.n := by omega
          rw [this]
          have e : (c * d.n + d.n) / d.n = c + 1 := by rw [← Nat.succ_mul, Nat.mul_div_cancel _ hn']
          rw [e]
          omega
        · omega
  refine ⟨?_, hown, ?_⟩
  · unfold ftot
    rw [h1]
    rw [h2] at hi
    split_ifs at hi with hf
    · rw [if_pos hf.1]
      omega
    · split_ifs <;> omega
  · unfold loc
    rw [hown, h1]
    omega

theorem cover (g : ℕ) (hg : g < d.ftot) : d.own g < d.cpus ∧ d.loc g < d.count (d.own g) ∧ d.start (d.own g) + d.loc g = g := by
  have h0 := tot_eq h
  have hown : d.own g < d.cpus := by have := h.1; unfold own; omega
  have hn : 0 < d.n := by
    by_contra hn
    have hn : d.n = 0 := by omega
    rw [hn, Nat.mul_zero] at h0
    unfold ftot at hg
    split_ifs at hg with hf
    · have := h.2.2 hf
      omega
    · omega
  have hle : d.own g * d.n ≤ g := le_trans (Nat.mul_le_mul_right _ (min_le_left _ _)) (Nat.div_mul_le_self _ _)
  have hs : d.start (d.own g) + d.loc g = g := by
    rw [start_eq h]
    unfold loc
    omega
  refine ⟨hown, ?_, hs⟩
  have h2 := more_eq h (d.own g) hown
  unfold loc count
  rw [h2]
  by_cases hq : g / d.n ≤ d.cpus - 1
  · have e : d.own g = g / d.n := min_eq_left hq
    have e2 : g < (d.own g + 1) * d.n := by rw [e, Nat.mul_comm]; exact Nat.lt_mul_div_succ g hn
    rw [Nat.add_mul, Nat.one_mul] at e2
    omega
  · have e : d.own g = d.cpus - 1 := min_eq_right (by omega)
    have e3 : d.tot ≤ g := by
      rw [h0, Nat.mul_comm]
      have : d.n * d.cpus ≤ d.n * (g / d.n) := Nat.mul_le_mul_left _ (by omega)
      exact this.trans (Nat.mul_div_le _ _)
    unfold ftot at hg
    have e4 : d.tot = (d.cpus - 1) * d.n + d.n := by rw [h0, ← Nat.succ_mul, Nat.succ_eq_add_one, Nat.sub_add_cancel h.1]
    split_ifs at hg with hf
    · rw [if_pos ⟨hf, e⟩, e]
      omega
    · omega

theorem within (c : ℕ) (hc : c < d.cpus) : d.start c + d.count c ≤ d.ftot := by
  have h0 := tot_eq h
  have hle : (c + 1) * d.n ≤ d.tot := by rw [h0]; exact Nat.mul_le_mul_right _ hc
  rw [Nat.add_mul, Nat.one_mul] at hle
  rw [start_eq h]
  unfold count ftot
  rw [more_eq h c hc]
  split_ifs with h1 h2 <;> first | omega | exact absurd h1.1 h2

end Dim

/-! ## Arrays -/

/-- The hyperslabs of the rank with coordinates `c` of an array with dimensions `D`. -/
def slab (D : List Dim) (c : List ℕ) : Slab where
  fdims := D.map Dim.ftot
  fstart := List.zipWith Dim.start D c
  fcount := List.zipWith Dim.count D c
  mdims := List.zipWith Dim.size D c
  mstart := D.map Dim.ghosts

def Coord (c : List ℕ) (D : List Dim) : Prop := List.Forall₂ (fun c d => c < d.cpus) c D
def Point (g : List ℕ) (D : List Dim) : Prop := List.Forall₂ (fun g d => g < d.ftot) g D
def own (D : List Dim) (g : List ℕ) : List ℕ := List.zipWith Dim.own D g
def loc (D : List Dim) (g : List ℕ) : List ℕ := List.zipWith Dim.loc D g

variable {V R : Type*}

theorem point_box : ∀ (D : List Dim) (g : List ℕ), Point g D → List.Forall₂ (· < ·) g (D.map Dim.ftot)
  | [], _, h => by cases h; exact .nil
  | d :: D, _, h => by
    cases h with
    | cons h1 h2 => exact .cons h1 (point_box D _ h2)

theorem fits_file : ∀ (D : List Dim) (c : List ℕ), (∀ d ∈ D, d.Good) → Coord c D →
    fits (D.map Dim.ftot) (List.zipWith Dim.start D c) (List.zipWith Dim.count D c) = true
  | [], _, _, h => by cases h; rfl
  | d :: D, _, hD, h => by
    cases h with
    | cons h1 h2 =>
      have ih := fits_file D _ (fun x hx => hD x (List.mem_cons_of_mem _ hx)) h2
      simp only [fits, shift, List.map_cons, List.zipWith_cons_cons, List.zip_cons_cons, List.all_cons, Bool.and_eq_true, decide_eq_true_eq] at ih ⊢
      exact ⟨Dim.within (hD d List.mem_cons_self) _ h1, ih⟩

theorem fits_mem : ∀ (D : List Dim) (c : List ℕ), Coord c D → fits (List.zipWith Dim.size D c) (D.map Dim.ghosts) (List.zipWith Dim.count D c) = true
  | [], _, h => by cases h; rfl
  | d :: D, _, h => by
    cases h with
    | cons h1 h2 =>
      have ih := fits_mem D _ h2
      simp only [fits, shift, List.map_cons, List.zipWith_cons_cons, List.zip_cons_cons, List.all_cons, Bool.and_eq_true, decide_eq_true_eq] at ih ⊢
      refine ⟨?_, ih⟩
      unfold Dim.count Dim.size
      omega

theorem points_slab (D : List Dim) (c : List ℕ) (hD : ∀ d ∈ D, d.Good) (hc : Coord c D) :
    points (slab D c) = (multi (slab D c).fcount).map fun i =>
      (flat (slab D c).fdims (shift (slab D c).fstart i), flat (slab D c).mdims (shift (slab D c).mstart i)) := by
  unfold points
  rw [if_pos]
  rw [Bool.and_eq_true]
  exact ⟨fits_file D c hD hc, fits_mem D c hc⟩

theorem list_point : ∀ (D : List Dim) (c i : List ℕ), (∀ d ∈ D, d.Good) → Coord c D → List.Forall₂ (· < ·) i (List.zipWith Dim.count D c) →
    Point (shift (List.zipWith Dim.start D c) i) D ∧ own D (shift (List.zipWith Dim.start D c) i) = c ∧ loc D (shift (List.zipWith Dim.start D c) i) = i
  | [], _, _, _, h, hi => by
    cases h
    cases hi
    exact ⟨.nil, rfl, rfl⟩
  | d :: D, _, _, hD, h, hi => by
    cases h with
    | cons h1 h2 =>
      cases hi with
      | cons h3 h4 =>
        obtain ⟨a1, a2, a3⟩ := Dim.point (hD d List.mem_cons_self) _ _ h1 h3
        obtain ⟨b1, b2, b3⟩ := list_point D _ _ (fun x hx => hD x (List.mem_cons_of_mem _ hx)) h2 h4
        refine ⟨.cons a1 b1, ?_, ?_⟩
        · exact congrArg₂ List.cons a2 b2
        · exact congrArg₂ List.cons a3 b3

theorem list_cover : ∀ (D : List Dim) (g : List ℕ), (∀ d ∈ D, d.Good) → Point g D →
    Coord (own D g) D ∧ List.Forall₂ (· < ·) (loc D g) (List.zipWith Dim.count D (own D g)) ∧ shift (List.zipWith Dim.start D (own D g)) (loc D g) = g
  | [], _, _, h => by
    cases h
    exact ⟨.nil, .nil, rfl⟩
  | d :: D, _, hD, h => by
    cases h with
    | cons h1 h2 =>
      obtain ⟨a1, a2, a3⟩ := Dim.cover (hD d List.mem_cons_self) _ h1
      obtain ⟨b1, b2, b3⟩ := list_cover D _ (fun x hx => hD x (List.mem_cons_of_mem _ hx)) h2
      exact ⟨.cons a1 b1, .cons a2 b2, congrArg₂ List.cons a3 b3⟩

theorem list_mem_box : ∀ (D : List Dim) (c i : List ℕ), Coord c D → List.Forall₂ (· < ·) i (List.zipWith Dim.count D c) →
    List.Forall₂ (· < ·) (shift (D.map Dim.ghosts) i) (List.zipWith Dim.size D c)
  | [], _, _, h, hi => by
    cases h
    cases hi
    exact .nil
  | d :: D, _, _, h, hi => by
    cases h with
    | cons h1 h2 =>
      cases hi with
      | cons h3 h4 =>
        refine .cons ?_ (list_mem_box D _ _ h2 h4)
        unfold Dim.count at h3
        unfold Dim.size
        beta_reduce
        omega

theorem shift_inj : ∀ (a i j : List ℕ), i.length = a.length → j.length = a.length → shift a i = shift a j → i = j
  | [], i, j, hi, hj, _ => by rw [List.length_eq_zero_iff.1 hi, List.length_eq_zero_iff.1 hj]
  | a :: as, i :: is, j :: js, hi, hj, h => by
    simp only [shift, List.zipWith_cons_cons, List.cons.injEq] at h
    rw [shift_inj as is js (by simpa using hi) (by simpa using hj) h.2]
    congr 1
    omega

/-- Where every number goes, for an array of any dimensions. -/
theorem place (D : List Dim) (hD : ∀ d ∈ D, d.Good) (co : R → List ℕ) (rnd : V → V) (k : Kind) (mem : R → ℕ → V) (order : List R) (file : ℕ → Option V)
    (hco : ∀ r ∈ order, Coord (co r) D) (hinj : ∀ r ∈ order, ∀ r' ∈ order, co r = co r' → r = r') (g : List ℕ) (hg : Point g D) (r : R) (hr : r ∈ order)
    (hown : co r = own D g) :
    writeAll rnd k (fun r => slab D (co r)) mem order file (flat (D.map Dim.ftot) g) =
      some (conv rnd k (mem r (flat (List.zipWith Dim.size D (co r)) (shift (D.map Dim.ghosts) (loc D g))))) := by
  obtain ⟨c1, c2, c3⟩ := list_cover D g hD hg
  rw [writeAll_put]
  refine put_eq _ _ _ _ ?_ (Or.inl ?_)
  · intro x hx hp
    obtain ⟨r', hr', hx⟩ := List.mem_flatMap.1 hx
    obtain ⟨q, hq, rfl⟩ := List.mem_map.1 hx
    rw [points_slab D _ hD (hco r' hr')] at hq
    obtain ⟨i, hi, rfl⟩ := List.mem_map.1 hq
    rw [mem_multi] at hi
    obtain ⟨p1, p2, p3⟩ := list_point D _ i hD (hco r' hr') hi
    have e := flat_inj _ _ _ (point_box D _ p1) (point_box D g hg) hp
    rw [e] at p2 p3
    have er : r' = r := hinj r' hr' r hr (by rw [← p2, hown])
    subst er
    rw [p3]
    rfl
  · refine ⟨(flat (D.map Dim.ftot) g, some (conv rnd k (mem r (flat (List.zipWith Dim.size D (co r)) (shift (D.map Dim.ghosts) (loc D g)))))), ?_, rfl⟩
    refine List.mem_flatMap.2 ⟨r, hr, List.mem_map.2 ⟨(flat (D.map Dim.ftot) g, flat (List.zipWith Dim.size D (co r)) (shift (D.map Dim.ghosts) (loc D g))), ?_, rfl⟩⟩
    rw [points_slab D _ hD (hco r hr)]
    refine List.mem_map.2 ⟨loc D g, ?_, ?_⟩
    · rw [mem_multi]
      simp only [slab]
      rw [hown]
      exact c2
    · simp only [slab]
      rw [hown, c3]

/-- Reading: every active point of memory gets what the file has at its place. -/
theorem fetch (D : List Dim) (hD : ∀ d ∈ D, d.Good) (c : List ℕ) (hc : Coord c D) (fill : V) (file : ℕ → Option V) (mem : ℕ → V) (i : List ℕ)
    (hi : List.Forall₂ (· < ·) i (List.zipWith Dim.count D c)) :
    readRank fill (slab D c) file mem (flat (List.zipWith Dim.size D c) (shift (D.map Dim.ghosts) i)) =
      (file (flat (D.map Dim.ftot) (shift (List.zipWith Dim.start D c) i))).getD fill := by
  have hlen : ∀ j, List.Forall₂ (· < ·) j (List.zipWith Dim.count D c) → j.length = (D.map Dim.ghosts).length := by
    intro j hj
    rw [hj.length_eq, List.length_zipWith, List.length_map, hc.length_eq, min_self]
  unfold readRank
  rw [points_slab D c hD hc]
  refine put_eq _ _ _ _ ?_ (Or.inl ?_)
  · intro x hx hp
    obtain ⟨q, hq, rfl⟩ := List.mem_map.1 hx
    obtain ⟨j, hj, rfl⟩ := List.mem_map.1 hq
    rw [mem_multi] at hj
    have e := flat_inj _ _ _ (list_mem_box D c j hc hj) (list_mem_box D c i hc hi) hp
    rw [shift_inj _ j i (hlen j hj) (hlen i hi) e]
    rfl
  · exact ⟨_, List.mem_map.2 ⟨_, List.mem_map.2 ⟨i, (mem_multi _ _).2 hi, rfl⟩, rfl⟩, rfl⟩

/-- Reading: nothing else changes. -/
theorem fetch_else (D : List Dim) (hD : ∀ d ∈ D, d.Good) (c : List ℕ) (hc : Coord c D) (fill : V) (file : ℕ → Option V) (mem : ℕ → V) (p : ℕ)
    (hp : ∀ i, List.Forall₂ (· < ·) i (List.zipWith Dim.count D c) → flat (List.zipWith Dim.size D c) (shift (D.map Dim.ghosts) i) ≠ p) :
    readRank fill (slab D c) file mem p = mem p := by
  unfold readRank
  rw [points_slab D c hD hc]
  refine put_ne _ _ _ ?_
  intro x hx
  obtain ⟨q, hq, rfl⟩ := List.mem_map.1 hx
  obtain ⟨j, hj, rfl⟩ := List.mem_map.1 hq
  exact hp j ((mem_multi _ _).1 hj)

/-! ## The arrays of the code -/

/-- Position of `x[i][j][k]` in a C array `x[][n2][n3]`. -/
def at3 (n2 n3 i j k : ℕ) : ℕ := (i * n2 + j) * n3 + k

/-- Position of `x[i][j][k][p]` in a C array `x[][n2][n3][m]`. -/
def at4 (n2 n3 m i j k p : ℕ) : ℕ := ((i * n2 + j) * n3 + k) * m + p

/-- Every rank has the same number of zones. -/
structure Even (D : Div) : Prop where
  c1 : 0 < D.C1
  c2 : 0 < D.C2
  c3 : 0 < D.C3
  d1 : D.C1 ∣ D.N1
  d2 : D.C2 ∣ D.N2
  d3 : D.C3 ∣ D.N3

/-- Every rank takes part, and nobody else. -/
def Ranks (D : Div) (order : List (ℕ × ℕ × ℕ)) : Prop := ∀ c, c ∈ order ↔ c.1 < D.C1 ∧ c.2.1 < D.C2 ∧ c.2.2 < D.C3

/-- A grid dimension, a dimension of components. -/
def zd (N C g : ℕ) : Dim := ⟨N, C, g, false⟩
def cd (m : ℕ) : Dim := ⟨m, 1, 0, false⟩
def fd (N C : ℕ) : Dim := ⟨N, C, 0, true⟩

theorem zd_good {N C g : ℕ} (h : 0 < C) (hd : C ∣ N) : (zd N C g).Good := ⟨h, hd, fun x => by simp [zd] at x⟩

theorem cd_good (m : ℕ) : (cd m).Good := ⟨one_pos, one_dvd _, fun x => by simp [cd] at x⟩

theorem zd_own {N C g x : ℕ} (h : 0 < C) (hd : C ∣ N) (hx : x < N) : (zd N C g).own x = x / (N / C) ∧ (zd N C g).loc x = x % (N / C) := by
  have e : (zd N C g).own x = x / (N / C) := by
    unfold Dim.own Dim.n zd
    refine min_eq_left ?_
    have e1 : N = N / C * C := (Nat.div_mul_cancel hd).symm
    have : x / (N / C) < C := Nat.div_lt_of_lt_mul (by rw [← e1]; exact hx)
    simp only
    omega
  refine ⟨e, ?_⟩
  unfold Dim.loc
  rw [e]
  have := Nat.div_add_mod x (N / C)
  unfold Dim.n zd
  simp only
  rw [Nat.mul_comm]
  omega

theorem cd_own {m x : ℕ} (hx : x < m) : (cd m).own x = 0 ∧ (cd m).loc x = x := by
  have e : (cd m).own x = 0 := by simp [Dim.own, cd]
  exact ⟨e, by simp [Dim.loc, e]⟩

theorem grid_eq (D : Div) (g : ℕ) (c : ℕ × ℕ × ℕ) : gridSlab D g c = slab [zd D.N1 D.C1 g, zd D.N2 D.C2 g, zd D.N3 D.C3 g] [c.1, c.2.1, c.2.2] := by
  simp [gridSlab, slab, zd, Dim.ftot, Dim.start, Dim.count, Dim.size, Dim.more, Dim.n, Div.n1, Div.n2, Div.n3, Div.s1, Div.s2, Div.s3, Decomp.stored]

theorem vec_eq (D : Div) (g m : ℕ) (c : ℕ × ℕ × ℕ) :
    vecSlab D g m c = slab [zd D.N1 D.C1 g, zd D.N2 D.C2 g, zd D.N3 D.C3 g, cd m] [c.1, c.2.1, c.2.2, 0] := by
  simp [vecSlab, slab, zd, cd, Dim.ftot, Dim.start, Dim.count, Dim.size, Dim.more, Dim.n, Div.n1, Div.n2, Div.n3, Div.s1, Div.s2, Div.s3, Decomp.stored,
    Decomp.start]

theorem tens_eq (D : Div) (g m : ℕ) (c : ℕ × ℕ × ℕ) :
    tensSlab D g m c = slab [zd D.N1 D.C1 g, zd D.N2 D.C2 g, zd D.N3 D.C3 g, cd m, cd m] [c.1, c.2.1, c.2.2, 0, 0] := by
  simp [tensSlab, slab, zd, cd, Dim.ftot, Dim.start, Dim.count, Dim.size, Dim.more, Dim.n, Div.n1, Div.n2, Div.n3, Div.s1, Div.s2, Div.s3, Decomp.stored,
    Decomp.start]

theorem conn_eq (D : Div) (m : ℕ) (c : ℕ × ℕ × ℕ) :
    connSlab D m c = slab [zd D.N1 D.C1 0, zd D.N2 D.C2 0, zd D.N3 D.C3 0, cd m, cd m, cd m] [c.1, c.2.1, c.2.2, 0, 0, 0] := by
  simp [connSlab, slab, zd, cd, Dim.ftot, Dim.start, Dim.count, Dim.size, Dim.more, Dim.n, Div.n1, Div.n2, Div.n3, Div.s1, Div.s2, Div.s3, Decomp.stored,
    Decomp.start]

theorem lead_eq (D : Div) (g m : ℕ) (c : ℕ × ℕ × ℕ) :
    leadSlab D g m c = slab [cd m, zd D.N1 D.C1 g, zd D.N2 D.C2 g, zd D.N3 D.C3 g] [0, c.1, c.2.1, c.2.2] := by
  simp [leadSlab, slab, zd, cd, Dim.ftot, Dim.start, Dim.count, Dim.size, Dim.more, Dim.n, Div.n1, Div.n2, Div.n3, Div.s1, Div.s2, Div.s3, Decomp.stored,
    Decomp.start]

theorem face_eq (D : Div) (m : ℕ) (c : ℕ × ℕ × ℕ) :
    faceSlab D m c = slab [fd D.N1 D.C1, fd D.N2 D.C2, fd D.N3 D.C3, cd m] [c.1, c.2.1, c.2.2, 0] := by
  simp [faceSlab, slab, fd, cd, Dim.ftot, Dim.start, Dim.count, Dim.size, Dim.more, Dim.n, Div.n1, Div.n2, Div.n3, Div.s1, Div.s2, Div.s3, Decomp.stored,
    Decomp.start]

theorem owner_mem {D : Div} (hD : Even D) {order : List (ℕ × ℕ × ℕ)} (ho : Ranks D order) {i j k : ℕ} (hi : i < D.N1) (hj : j < D.N2) (hk : k < D.N3) :
    (i / (D.N1 / D.C1), j / (D.N2 / D.C2), k / (D.N3 / D.C3)) ∈ order := by
  have key : ∀ {N C x : ℕ}, C ∣ N → x < N → x / (N / C) < C := by
    intro N C x hd hx
    exact Nat.div_lt_of_lt_mul (by rw [Nat.div_mul_cancel hd]; exact hx)
  exact (ho _).2 ⟨key hD.d1 hi, key hD.d2 hj, key hD.d3 hk⟩

/-- **C141.** On every grid divided evenly among ranks, whatever order the ranks write in, every zone of an array with `m` numbers per zone (primitives,
currents, radiation force, counts by type, coordinates of zones; `g` ghost zones or none) is in the file at its place in the whole grid, as the rank holding it
has it. -/
theorem C141_place_vec (D : Div) (hD : Even D) (g m : ℕ) (rnd : V → V) (kind : Kind) (mem : ℕ × ℕ × ℕ → ℕ → V) (order : List (ℕ × ℕ × ℕ)) (ho : Ranks D order)
    (file : ℕ → Option V) (i j k p : ℕ) (hi : i < D.N1) (hj : j < D.N2) (hk : k < D.N3) (hp : p < m) :
    writeAll rnd kind (vecSlab D g m) mem order file (at4 D.N2 D.N3 m i j k p) =
      some (conv rnd kind (mem (i / (D.N1 / D.C1), j / (D.N2 / D.C2), k / (D.N3 / D.C3))
        (at4 (D.N2 / D.C2 + 2 * g) (D.N3 / D.C3 + 2 * g) m (i % (D.N1 / D.C1) + g) (j % (D.N2 / D.C2) + g) (k % (D.N3 / D.C3) + g) p))) := by
  have e1 := zd_own (g := g) hD.c1 hD.d1 hi
  have e2 := zd_own (g := g) hD.c2 hD.d2 hj
  have e3 := zd_own (g := g) hD.c3 hD.d3 hk
  have e4 := cd_own hp
  have h := place [zd D.N1 D.C1 g, zd D.N2 D.C2 g, zd D.N3 D.C3 g, cd m]
    (by simp only [List.forall_mem_cons]; exact ⟨zd_good hD.c1 hD.d1, zd_good hD.c2 hD.d2, zd_good hD.c3 hD.d3, cd_good m, by simp⟩)
    (fun c : ℕ × ℕ × ℕ => [c.1, c.2.1, c.2.2, 0]) rnd kind mem order file
    (fun c hc => by
      obtain ⟨a, b, d⟩ := (ho c).1 hc
      exact .cons a (.cons b (.cons d (.cons one_pos .nil))))
    (fun c _ c' _ h => by
      simp only [List.cons.injEq] at h
      exact Prod.ext h.1 (Prod.ext h.2.1 h.2.2.1))
    [i, j, k, p] (.cons hi (.cons hj (.cons hk (.cons hp .nil)))) _ (owner_mem hD ho hi hj hk)
    (by simp only [own, List.zipWith_cons_cons, e1.1, e2.1, e3.1, e4.1, List.zipWith_nil_left])
  simp only [← vec_eq, loc, List.zipWith_cons_cons, e1.2, e2.2, e3.2, e4.2, List.zipWith_nil_left, List.map_cons, List.map_nil, shift] at h
  have f1 : flat [(zd D.N1 D.C1 g).ftot, (zd D.N2 D.C2 g).ftot, (zd D.N3 D.C3 g).ftot, (cd m).ftot] [i, j, k, p] = at4 D.N2 D.N3 m i j k p := by
    simp [flat, zd, cd, Dim.ftot, at4]
    ring
  rw [f1] at h
  rw [h]
  congr 3
  simp [flat, zd, cd, Dim.size, Dim.n, Dim.more, at4]
  ring

/-- **C141.** The same for an array with one number per zone. -/
theorem C141_place_grid (D : Div) (hD : Even D) (g : ℕ) (rnd : V → V) (kind : Kind) (mem : ℕ × ℕ × ℕ → ℕ → V) (order : List (ℕ × ℕ × ℕ)) (ho : Ranks D order)
    (file : ℕ → Option V) (i j k : ℕ) (hi : i < D.N1) (hj : j < D.N2) (hk : k < D.N3) :
    writeAll rnd kind (gridSlab D g) mem order file (at3 D.N2 D.N3 i j k) =
      some (conv rnd kind (mem (i / (D.N1 / D.C1), j / (D.N2 / D.C2), k / (D.N3 / D.C3))
        (at3 (D.N2 / D.C2 + 2 * g) (D.N3 / D.C3 + 2 * g) (i % (D.N1 / D.C1) + g) (j % (D.N2 / D.C2) + g) (k % (D.N3 / D.C3) + g)))) := by
  have e1 := zd_own (g := g) hD.c1 hD.d1 hi
  have e2 := zd_own (g := g) hD.c2 hD.d2 hj
  have e3 := zd_own (g := g) hD.c3 hD.d3 hk
  have h := place [zd D.N1 D.C1 g, zd D.N2 D.C2 g, zd D.N3 D.C3 g]
    (by simp only [List.forall_mem_cons]; exact ⟨zd_good hD.c1 hD.d1, zd_good hD.c2 hD.d2, zd_good hD.c3 hD.d3, by simp⟩)
    (fun c : ℕ × ℕ × ℕ => [c.1, c.2.1, c.2.2]) rnd kind mem order file
    (fun c hc => by
      obtain ⟨a, b, d⟩ := (ho c).1 hc
      exact .cons a (.cons b (.cons d .nil)))
    (fun c _ c' _ h => by
      simp only [List.cons.injEq] at h
      exact Prod.ext h.1 (Prod.ext h.2.1 h.2.2.1))
    [i, j, k] (.cons hi (.cons hj (.cons hk .nil))) _ (owner_mem hD ho hi hj hk)
    (by simp only [own, List.zipWith_cons_cons, e1.1, e2.1, e3.1, List.zipWith_nil_left])
  simp only [← grid_eq, loc, List.zipWith_cons_cons, e1.2, e2.2, e3.2, List.zipWith_nil_left, List.map_cons, List.map_nil, shift] at h
  have f1 : flat [(zd D.N1 D.C1 g).ftot, (zd D.N2 D.C2 g).ftot, (zd D.N3 D.C3 g).ftot] [i, j, k] = at3 D.N2 D.N3 i j k := by
    simp [flat, zd, Dim.ftot, at3]
    ring
  rw [f1] at h
  rw [h]
  congr 3
  simp [flat, zd, Dim.size, Dim.n, Dim.more, at3]
  ring

/-- **C141.** The same for an array with a matrix per zone: row `p`, column `q` (metric, transformations). -/
theorem C141_place_tensor (D : Div) (hD : Even D) (g m : ℕ) (rnd : V → V) (kind : Kind) (mem : ℕ × ℕ × ℕ → ℕ → V) (order : List (ℕ × ℕ × ℕ))
    (ho : Ranks D order) (file : ℕ → Option V) (i j k p q : ℕ) (hi : i < D.N1) (hj : j < D.N2) (hk : k < D.N3) (hp : p < m) (hq : q < m) :
    writeAll rnd kind (tensSlab D g m) mem order file (at4 D.N2 D.N3 (m * m) i j k (p * m + q)) =
      some (conv rnd kind (mem (i / (D.N1 / D.C1), j / (D.N2 / D.C2), k / (D.N3 / D.C3))
        (at4 (D.N2 / D.C2 + 2 * g) (D.N3 / D.C3 + 2 * g) (m * m) (i % (D.N1 / D.C1) + g) (j % (D.N2 / D.C2) + g) (k % (D.N3 / D.C3) + g) (p * m + q)))) := by
  have e1 := zd_own (g := g) hD.c1 hD.d1 hi
  have e2 := zd_own (g := g) hD.c2 hD.d2 hj
  have e3 := zd_own (g := g) hD.c3 hD.d3 hk
  have e4 := cd_own hp
  have e5 := cd_own hq
  have h := place [zd D.N1 D.C1 g, zd D.N2 D.C2 g, zd D.N3 D.C3 g, cd m, cd m]
    (by simp only [List.forall_mem_cons]; exact ⟨zd_good hD.c1 hD.d1, zd_good hD.c2 hD.d2, zd_good hD.c3 hD.d3, cd_good m, cd_good m, by simp⟩)
    (fun c : ℕ × ℕ × ℕ => [c.1, c.2.1, c.2.2, 0, 0]) rnd kind mem order file
    (fun c hc => by
      obtain ⟨a, b, d⟩ := (ho c).1 hc
      exact .cons a (.cons b (.cons d (.cons one_pos (.cons one_pos .nil)))))
    (fun c _ c' _ h => by
      simp only [List.cons.injEq] at h
      exact Prod.ext h.1 (Prod.ext h.2.1 h.2.2.1))
    [i, j, k, p, q] (.cons hi (.cons hj (.cons hk (.cons hp (.cons hq .nil))))) _ (owner_mem hD ho hi hj hk)
    (by simp only [own, List.zipWith_cons_cons, e1.1, e2.1, e3.1, e4.1, e5.1, List.zipWith_nil_left])
  simp only [← tens_eq, loc, List.zipWith_cons_cons, e1.2, e2.2, e3.2, e4.2, e5.2, List.zipWith_nil_left, List.map_cons, List.map_nil, shift] at h
  have f1 : flat [(zd D.N1 D.C1 g).ftot, (zd D.N2 D.C2 g).ftot, (zd D.N3 D.C3 g).ftot, (cd m).ftot, (cd m).ftot] [i, j, k, p, q] =
      at4 D.N2 D.N3 (m * m) i j k (p * m + q) := by
    simp [flat, zd, cd, Dim.ftot, at4]
    ring
  rw [f1] at h
  rw [h]
  congr 3
  simp [flat, zd, cd, Dim.size, Dim.n, Dim.more, at4]
  ring

/-- **C141.** The same for the connection coefficients. -/
theorem C141_place_conn (D : Div) (hD : Even D) (m : ℕ) (rnd : V → V) (kind : Kind) (mem : ℕ × ℕ × ℕ → ℕ → V) (order : List (ℕ × ℕ × ℕ))
    (ho : Ranks D order) (file : ℕ → Option V) (i j k p q s : ℕ) (hi : i < D.N1) (hj : j < D.N2) (hk : k < D.N3) (hp : p < m) (hq : q < m) (hs : s < m) :
    writeAll rnd kind (connSlab D m) mem order file (at4 D.N2 D.N3 (m * m * m) i j k ((p * m + q) * m + s)) =
      some (conv rnd kind (mem (i / (D.N1 / D.C1), j / (D.N2 / D.C2), k / (D.N3 / D.C3))
        (at4 (D.N2 / D.C2) (D.N3 / D.C3) (m * m * m) (i % (D.N1 / D.C1)) (j % (D.N2 / D.C2)) (k % (D.N3 / D.C3)) ((p * m + q) * m + s)))) := by
  have e1 := zd_own (g := 0) hD.c1 hD.d1 hi
  have e2 := zd_own (g := 0) hD.c2 hD.d2 hj
  have e3 := zd_own (g := 0) hD.c3 hD.d3 hk
  have e4 := cd_own hp
  have e5 := cd_own hq
  have e6 := cd_own hs
  have h := place [zd D.N1 D.C1 0, zd D.N2 D.C2 0, zd D.N3 D.C3 0, cd m, cd m, cd m]
    (by simp only [List.forall_mem_cons]; exact ⟨zd_good hD.c1 hD.d1, zd_good hD.c2 hD.d2, zd_good hD.c3 hD.d3, cd_good m, cd_good m, cd_good m, by simp⟩)
    (fun c : ℕ × ℕ × ℕ => [c.1, c.2.1, c.2.2, 0, 0, 0]) rnd kind mem order file
    (fun c hc => by
      obtain ⟨a, b, d⟩ := (ho c).1 hc
      exact .cons a (.cons b (.cons d (.cons one_pos (.cons one_pos (.cons one_pos .nil))))))
    (fun c _ c' _ h => by
      simp only [List.cons.injEq] at h
      exact Prod.ext h.1 (Prod.ext h.2.1 h.2.2.1))
    [i, j, k, p, q, s] (.cons hi (.cons hj (.cons hk (.cons hp (.cons hq (.cons hs .nil)))))) _ (owner_mem hD ho hi hj hk)
    (by simp only [own, List.zipWith_cons_cons, e1.1, e2.1, e3.1, e4.1, e5.1, e6.1, List.zipWith_nil_left])
  simp only [← conn_eq, loc, List.zipWith_cons_cons, e1.2, e2.2, e3.2, e4.2, e5.2, e6.2, List.zipWith_nil_left, List.map_cons, List.map_nil, shift] at h
  have f1 : flat [(zd D.N1 D.C1 0).ftot, (zd D.N2 D.C2 0).ftot, (zd D.N3 D.C3 0).ftot, (cd m).ftot, (cd m).ftot, (cd m).ftot] [i, j, k, p, q, s] =
      at4 D.N2 D.N3 (m * m * m) i j k ((p * m + q) * m + s) := by
    simp [flat, zd, cd, Dim.ftot, at4]
    ring
  rw [f1] at h
  rw [h]
  congr 3
  simp [flat, zd, cd, Dim.size, Dim.n, Dim.more, at4]
  ring

/-- **C141.** The same for arrays whose component comes first (radiation energies, optical depths): `x[p][i][j][k]`. -/
theorem C141_place_lead (D : Div) (hD : Even D) (g m : ℕ) (rnd : V → V) (kind : Kind) (mem : ℕ × ℕ × ℕ → ℕ → V) (order : List (ℕ × ℕ × ℕ)) (ho : Ranks D order)
    (file : ℕ → Option V) (i j k p : ℕ) (hi : i < D.N1) (hj : j < D.N2) (hk : k < D.N3) (hp : p < m) :
    writeAll rnd kind (leadSlab D g m) mem order file (at4 D.N1 D.N2 D.N3 p i j k) =
      some (conv rnd kind (mem (i / (D.N1 / D.C1), j / (D.N2 / D.C2), k / (D.N3 / D.C3))
        (at4 (D.N1 / D.C1 + 2 * g) (D.N2 / D.C2 + 2 * g) (D.N3 / D.C3 + 2 * g) p (i % (D.N1 / D.C1) + g) (j % (D.N2 / D.C2) + g) (k % (D.N3 / D.C3) + g)))) := by
  have e1 := zd_own (g := g) hD.c1 hD.d1 hi
  have e2 := zd_own (g := g) hD.c2 hD.d2 hj
  have e3 := zd_own (g := g) hD.c3 hD.d3 hk
  have e4 := cd_own hp
  have h := place [cd m, zd D.N1 D.C1 g, zd D.N2 D.C2 g, zd D.N3 D.C3 g]
    (by simp only [List.forall_mem_cons]; exact ⟨cd_good m, zd_good hD.c1 hD.d1, zd_good hD.c2 hD.d2, zd_good hD.c3 hD.d3, by simp⟩)
    (fun c : ℕ × ℕ × ℕ => [0, c.1, c.2.1, c.2.2]) rnd kind mem order file
    (fun c hc => by
      obtain ⟨a, b, d⟩ := (ho c).1 hc
      exact .cons one_pos (.cons a (.cons b (.cons d .nil))))
    (fun c _ c' _ h => by
      simp only [List.cons.injEq] at h
      exact Prod.ext h.2.1 (Prod.ext h.2.2.1 h.2.2.2.1))
    [p, i, j, k] (.cons hp (.cons hi (.cons hj (.cons hk .nil)))) _ (owner_mem hD ho hi hj hk)
    (by simp only [own, List.zipWith_cons_cons, e1.1, e2.1, e3.1, e4.1, List.zipWith_nil_left])
  simp only [← lead_eq, loc, List.zipWith_cons_cons, e1.2, e2.2, e3.2, e4.2, List.zipWith_nil_left, List.map_cons, List.map_nil, shift] at h
  have f1 : flat [(cd m).ftot, (zd D.N1 D.C1 g).ftot, (zd D.N2 D.C2 g).ftot, (zd D.N3 D.C3 g).ftot] [p, i, j, k] = at4 D.N1 D.N2 D.N3 p i j k := by
    simp [flat, zd, cd, Dim.ftot, at4]
    ring
  rw [f1] at h
  rw [h]
  congr 3
  simp [flat, zd, cd, Dim.size, Dim.n, Dim.more, at4]
  ring

/-- The rank that writes corner `x` of `N` zones on `C` ranks: that of the zone above it, the last rank for the last corner. -/
def faceOwner (N C x : ℕ) : ℕ := if x = N then C - 1 else x / (N / C)

/-- The corners a rank writes: one per zone, and one more on the last rank. -/
def faceCount (N C c : ℕ) : ℕ := if c = C - 1 then N / C + 1 else N / C

theorem fd_facts {N C x : ℕ} (h : 0 < C) (hd : C ∣ N) (hN : 0 < N) (hx : x ≤ N) :
    (fd N C).own x = faceOwner N C x ∧ (fd N C).loc x = x - faceOwner N C x * (N / C) ∧ faceOwner N C x < C := by
  have e1 : N = C * (N / C) := (Nat.mul_div_cancel' hd).symm
  have hn : 0 < N / C := Nat.div_pos (Nat.le_of_dvd hN hd) h
  have e : (fd N C).own x = faceOwner N C x := by
    unfold Dim.own Dim.n fd faceOwner
    simp only
    split_ifs with hx'
    · rw [hx', Nat.div_eq_of_eq_mul_left hn e1]
      omega
    · have : x / (N / C) < C := Nat.div_lt_of_lt_mul (by rw [Nat.mul_comm, ← e1]; omega)
      omega
  refine ⟨e, ?_, ?_⟩
  · unfold Dim.loc
    rw [e]
    rfl
  · rw [← e]
    unfold Dim.own fd
    simp only
    omega

theorem fd_good {N C : ℕ} (h : 0 < C) (hd : C ∣ N) (hN : 0 < N) : (fd N C).Good := ⟨h, hd, fun _ => hN⟩

theorem fd_size {N C c : ℕ} (h : 0 < C) (hd : C ∣ N) (hN : 0 < N) (hc : c < C) : (fd N C).size c = faceCount N C c := by
  have := Dim.more_eq (fd_good h hd hN) c hc
  unfold Dim.size faceCount
  rw [this]
  unfold fd Dim.n
  simp only [true_and]
  split_ifs <;> simp

/-- **C141.** Every corner of every zone, the last ones included, is in the file at its place. -/
theorem C141_place_faces (D : Div) (hD : Even D) (h1 : 0 < D.N1) (h2 : 0 < D.N2) (h3 : 0 < D.N3) (m : ℕ) (rnd : V → V) (kind : Kind)
    (mem : ℕ × ℕ × ℕ → ℕ → V) (order : List (ℕ × ℕ × ℕ)) (ho : Ranks D order)
    (file : ℕ → Option V) (i j k p : ℕ) (hi : i ≤ D.N1) (hj : j ≤ D.N2) (hk : k ≤ D.N3) (hp : p < m) :
    writeAll rnd kind (faceSlab D m) mem order file (at4 (D.N2 + 1) (D.N3 + 1) m i j k p) =
      some (conv rnd kind (mem (faceOwner D.N1 D.C1 i, faceOwner D.N2 D.C2 j, faceOwner D.N3 D.C3 k)
        (at4 (faceCount D.N2 D.C2 (faceOwner D.N2 D.C2 j)) (faceCount D.N3 D.C3 (faceOwner D.N3 D.C3 k)) m
          (i - faceOwner D.N1 D.C1 i * (D.N1 / D.C1)) (j - faceOwner D.N2 D.C2 j * (D.N2 / D.C2)) (k - faceOwner D.N3 D.C3 k * (D.N3 / D.C3)) p))) := by
  have e1 := fd_facts hD.c1 hD.d1 h1 hi
  have e2 := fd_facts hD.c2 hD.d2 h2 hj
  have e3 := fd_facts hD.c3 hD.d3 h3 hk
  have e4 := cd_own hp
  have h := place [fd D.N1 D.C1, fd D.N2 D.C2, fd D.N3 D.C3, cd m]
    (by simp only [List.forall_mem_cons]; exact ⟨fd_good hD.c1 hD.d1 h1, fd_good hD.c2 hD.d2 h2, fd_good hD.c3 hD.d3 h3, cd_good m, by simp⟩)
    (fun c : ℕ × ℕ × ℕ => [c.1, c.2.1, c.2.2, 0]) rnd kind mem order file
    (fun c hc => by
      obtain ⟨a, b, d⟩ := (ho c).1 hc
      exact .cons a (.cons b (.cons d (.cons one_pos .nil))))
    (fun c _ c' _ h => by
      simp only [List.cons.injEq] at h
      exact Prod.ext h.1 (Prod.ext h.2.1 h.2.2.1))
    [i, j, k, p] (.cons (Nat.lt_succ_of_le hi) (.cons (Nat.lt_succ_of_le hj) (.cons (Nat.lt_succ_of_le hk) (.cons hp .nil))))
    (faceOwner D.N1 D.C1 i, faceOwner D.N2 D.C2 j, faceOwner D.N3 D.C3 k) ((ho _).2 ⟨e1.2.2, e2.2.2, e3.2.2⟩)
    (by simp only [own, List.zipWith_cons_cons, e1.1, e2.1, e3.1, e4.1, List.zipWith_nil_left])
  simp only [← face_eq, loc, List.zipWith_cons_cons, e1.2.1, e2.2.1, e3.2.1, e4.2, List.zipWith_nil_left, List.map_cons, List.map_nil, shift,
    fd_size hD.c1 hD.d1 h1 e1.2.2, fd_size hD.c2 hD.d2 h2 e2.2.2, fd_size hD.c3 hD.d3 h3 e3.2.2] at h
  have f1 : flat [(fd D.N1 D.C1).ftot, (fd D.N2 D.C2).ftot, (fd D.N3 D.C3).ftot, (cd m).ftot] [i, j, k, p] = at4 (D.N2 + 1) (D.N3 + 1) m i j k p := by
    simp [flat, fd, cd, Dim.ftot, at4]
    ring
  rw [f1] at h
  rw [h]
  congr 3
  simp [flat, fd, cd, Dim.size, Dim.n, Dim.more, at4]
  ring

/-! ## Restarting -/

theorem zone_back {N C c x : ℕ} (hd : C ∣ N) (hc : c < C) (hx : x < N / C) : c * (N / C) + x < N := by
  have : (c + 1) * (N / C) ≤ C * (N / C) := Nat.mul_le_mul_right _ hc
  rw [Nat.mul_div_cancel' hd, Nat.add_mul, Nat.one_mul] at this
  omega

/-- **C141.** An array written by ranks dividing the grid one way and read by ranks dividing it another way, with other numbers of ghost zones: every zone of
every rank gets the number that zone of the grid had, exactly. -/
theorem C141_reread_vec (D D' : Div) (hD : Even D) (hD' : Even D') (hN : D'.N1 = D.N1 ∧ D'.N2 = D.N2 ∧ D'.N3 = D.N3) (g g' m : ℕ) (rnd : V → V)
    (mem : ℕ × ℕ × ℕ → ℕ → V) (order : List (ℕ × ℕ × ℕ)) (ho : Ranks D order) (file : ℕ → Option V) (fill : V) (old : ℕ → V) (c : ℕ × ℕ × ℕ)
    (hc : c.1 < D'.C1 ∧ c.2.1 < D'.C2 ∧ c.2.2 < D'.C3) (i j k p : ℕ) (hi : i < D'.N1 / D'.C1) (hj : j < D'.N2 / D'.C2) (hk : k < D'.N3 / D'.C3) (hp : p < m) :
    readRank fill (vecSlab D' g' m c) (writeAll rnd .dbl (vecSlab D g m) mem order file) old
        (at4 (D'.N2 / D'.C2 + 2 * g') (D'.N3 / D'.C3 + 2 * g') m (i + g') (j + g') (k + g') p) =
      mem ((c.1 * (D'.N1 / D'.C1) + i) / (D.N1 / D.C1), (c.2.1 * (D'.N2 / D'.C2) + j) / (D.N2 / D.C2), (c.2.2 * (D'.N3 / D'.C3) + k) / (D.N3 / D.C3))
        (at4 (D.N2 / D.C2 + 2 * g) (D.N3 / D.C3 + 2 * g) m ((c.1 * (D'.N1 / D'.C1) + i) % (D.N1 / D.C1) + g)
          ((c.2.1 * (D'.N2 / D'.C2) + j) % (D.N2 / D.C2) + g) ((c.2.2 * (D'.N3 / D'.C3) + k) % (D.N3 / D.C3) + g) p) := by
  have hw := C141_place_vec D hD g m rnd .dbl mem order ho file (c.1 * (D'.N1 / D'.C1) + i) (c.2.1 * (D'.N2 / D'.C2) + j) (c.2.2 * (D'.N3 / D'.C3) + k) p
    (hN.1 ▸ zone_back hD'.d1 hc.1 hi) (hN.2.1 ▸ zone_back hD'.d2 hc.2.1 hj) (hN.2.2 ▸ zone_back hD'.d3 hc.2.2 hk) hp
  have h := fetch [zd D'.N1 D'.C1 g', zd D'.N2 D'.C2 g', zd D'.N3 D'.C3 g', cd m]
    (by simp only [List.forall_mem_cons]; exact ⟨zd_good hD'.c1 hD'.d1, zd_good hD'.c2 hD'.d2, zd_good hD'.c3 hD'.d3, cd_good m, by simp⟩)
    [c.1, c.2.1, c.2.2, 0] (.cons hc.1 (.cons hc.2.1 (.cons hc.2.2 (.cons one_pos .nil)))) fill
    (writeAll rnd .dbl (vecSlab D g m) mem order file) old [i, j, k, p]
    (.cons hi (.cons hj (.cons hk (.cons (by simpa [Dim.count, cd, Dim.n, Dim.more] using hp) .nil))))
  rw [← vec_eq] at h
  have f1 : flat (List.zipWith Dim.size [zd D'.N1 D'.C1 g', zd D'.N2 D'.C2 g', zd D'.N3 D'.C3 g', cd m] [c.1, c.2.1, c.2.2, 0])
      (shift ([zd D'.N1 D'.C1 g', zd D'.N2 D'.C2 g', zd D'.N3 D'.C3 g', cd m].map Dim.ghosts) [i, j, k, p]) =
      at4 (D'.N2 / D'.C2 + 2 * g') (D'.N3 / D'.C3 + 2 * g') m (i + g') (j + g') (k + g') p := by
    simp [flat, shift, zd, cd, Dim.size, Dim.n, Dim.more, at4]
    ring
  have s1 : (zd D'.N1 D'.C1 g').start c.1 = c.1 * (D'.N1 / D'.C1) := Dim.start_eq (zd_good hD'.c1 hD'.d1) c.1
  have s2 : (zd D'.N2 D'.C2 g').start c.2.1 = c.2.1 * (D'.N2 / D'.C2) := Dim.start_eq (zd_good hD'.c2 hD'.d2) c.2.1
  have s3 : (zd D'.N3 D'.C3 g').start c.2.2 = c.2.2 * (D'.N3 / D'.C3) := Dim.start_eq (zd_good hD'.c3 hD'.d3) c.2.2
  have s4 : (cd m).start 0 = 0 := by simp [Dim.start, Decomp.start]
  have f2 : flat ([zd D'.N1 D'.C1 g', zd D'.N2 D'.C2 g', zd D'.N3 D'.C3 g', cd m].map Dim.ftot)
      (shift (List.zipWith Dim.start [zd D'.N1 D'.C1 g', zd D'.N2 D'.C2 g', zd D'.N3 D'.C3 g', cd m] [c.1, c.2.1, c.2.2, 0]) [i, j, k, p]) =
      at4 D.N2 D.N3 m (c.1 * (D'.N1 / D'.C1) + i) (c.2.1 * (D'.N2 / D'.C2) + j) (c.2.2 * (D'.N3 / D'.C3) + k) p := by
    simp only [shift, List.zipWith_cons_cons, s1, s2, s3, s4, List.zipWith_nil_left, List.map_cons, List.map_nil, flat, List.prod_cons, List.prod_nil]
    simp [zd, cd, Dim.ftot, at4, hN.2.1, hN.2.2]
    ring
  rw [f1, f2, hw] at h
  rw [h]
  rfl

/-- **C141.** The same for one number per zone. -/
theorem C141_reread_grid (D D' : Div) (hD : Even D) (hD' : Even D') (hN : D'.N1 = D.N1 ∧ D'.N2 = D.N2 ∧ D'.N3 = D.N3) (g g' : ℕ) (rnd : V → V)
    (mem : ℕ × ℕ × ℕ → ℕ → V) (order : List (ℕ × ℕ × ℕ)) (ho : Ranks D order) (file : ℕ → Option V) (fill : V) (old : ℕ → V) (c : ℕ × ℕ × ℕ)
    (hc : c.1 < D'.C1 ∧ c.2.1 < D'.C2 ∧ c.2.2 < D'.C3) (i j k : ℕ) (hi : i < D'.N1 / D'.C1) (hj : j < D'.N2 / D'.C2) (hk : k < D'.N3 / D'.C3) :
    readRank fill (gridSlab D' g' c) (writeAll rnd .dbl (gridSlab D g) mem order file) old
        (at3 (D'.N2 / D'.C2 + 2 * g') (D'.N3 / D'.C3 + 2 * g') (i + g') (j + g') (k + g')) =
      mem ((c.1 * (D'.N1 / D'.C1) + i) / (D.N1 / D.C1), (c.2.1 * (D'.N2 / D'.C2) + j) / (D.N2 / D.C2), (c.2.2 * (D'.N3 / D'.C3) + k) / (D.N3 / D.C3))
        (at3 (D.N2 / D.C2 + 2 * g) (D.N3 / D.C3 + 2 * g) ((c.1 * (D'.N1 / D'.C1) + i) % (D.N1 / D.C1) + g)
          ((c.2.1 * (D'.N2 / D'.C2) + j) % (D.N2 / D.C2) + g) ((c.2.2 * (D'.N3 / D'.C3) + k) % (D.N3 / D.C3) + g)) := by
  have hw := C141_place_grid D hD g rnd .dbl mem order ho file (c.1 * (D'.N1 / D'.C1) + i) (c.2.1 * (D'.N2 / D'.C2) + j) (c.2.2 * (D'.N3 / D'.C3) + k)
    (hN.1 ▸ zone_back hD'.d1 hc.1 hi) (hN.2.1 ▸ zone_back hD'.d2 hc.2.1 hj) (hN.2.2 ▸ zone_back hD'.d3 hc.2.2 hk)
  have h := fetch [zd D'.N1 D'.C1 g', zd D'.N2 D'.C2 g', zd D'.N3 D'.C3 g']
    (by simp only [List.forall_mem_cons]; exact ⟨zd_good hD'.c1 hD'.d1, zd_good hD'.c2 hD'.d2, zd_good hD'.c3 hD'.d3, by simp⟩)
    [c.1, c.2.1, c.2.2] (.cons hc.1 (.cons hc.2.1 (.cons hc.2.2 .nil))) fill
    (writeAll rnd .dbl (gridSlab D g) mem order file) old [i, j, k]
    (.cons hi (.cons hj (.cons hk .nil)))
  rw [← grid_eq] at h
  have f1 : flat (List.zipWith Dim.size [zd D'.N1 D'.C1 g', zd D'.N2 D'.C2 g', zd D'.N3 D'.C3 g'] [c.1, c.2.1, c.2.2])
      (shift ([zd D'.N1 D'.C1 g', zd D'.N2 D'.C2 g', zd D'.N3 D'.C3 g'].map Dim.ghosts) [i, j, k]) =
      at3 (D'.N2 / D'.C2 + 2 * g') (D'.N3 / D'.C3 + 2 * g') (i + g') (j + g') (k + g') := by
    simp [flat, shift, zd, Dim.size, Dim.n, Dim.more, at3]
    ring
  have s1 : (zd D'.N1 D'.C1 g').start c.1 = c.1 * (D'.N1 / D'.C1) := Dim.start_eq (zd_good hD'.c1 hD'.d1) c.1
  have s2 : (zd D'.N2 D'.C2 g').start c.2.1 = c.2.1 * (D'.N2 / D'.C2) := Dim.start_eq (zd_good hD'.c2 hD'.d2) c.2.1
  have s3 : (zd D'.N3 D'.C3 g').start c.2.2 = c.2.2 * (D'.N3 / D'.C3) := Dim.start_eq (zd_good hD'.c3 hD'.d3) c.2.2
  have f2 : flat ([zd D'.N1 D'.C1 g', zd D'.N2 D'.C2 g', zd D'.N3 D'.C3 g'].map Dim.ftot)
      (shift (List.zipWith Dim.start [zd D'.N1 D'.C1 g', zd D'.N2 D'.C2 g', zd D'.N3 D'.C3 g'] [c.1, c.2.1, c.2.2]) [i, j, k]) =
      at3 D.N2 D.N3 (c.1 * (D'.N1 / D'.C1) + i) (c.2.1 * (D'.N2 / D'.C2) + j) (c.2.2 * (D'.N3 / D'.C3) + k) := by
    simp only [shift, List.zipWith_cons_cons, s1, s2, s3, List.zipWith_nil_left, List.map_cons, List.map_nil, flat, List.prod_cons, List.prod_nil]
    simp [zd, Dim.ftot, at3, hN.2.1, hN.2.2]
    ring
  rw [f1, f2, hw] at h
  rw [h]
  rfl

/-- **C141.** The same for arrays whose component comes first. -/
theorem C141_reread_lead (D D' : Div) (hD : Even D) (hD' : Even D') (hN : D'.N1 = D.N1 ∧ D'.N2 = D.N2 ∧ D'.N3 = D.N3) (g g' m : ℕ) (rnd : V → V)
    (mem : ℕ × ℕ × ℕ → ℕ → V) (order : List (ℕ × ℕ × ℕ)) (ho : Ranks D order) (file : ℕ → Option V) (fill : V) (old : ℕ → V) (c : ℕ × ℕ × ℕ)
    (hc : c.1 < D'.C1 ∧ c.2.1 < D'.C2 ∧ c.2.2 < D'.C3) (i j k p : ℕ) (hi : i < D'.N1 / D'.C1) (hj : j < D'.N2 / D'.C2) (hk : k < D'.N3 / D'.C3) (hp : p < m) :
    readRank fill (leadSlab D' g' m c) (writeAll rnd .dbl (leadSlab D g m) mem order file) old
        (at4 (D'.N1 / D'.C1 + 2 * g') (D'.N2 / D'.C2 + 2 * g') (D'.N3 / D'.C3 + 2 * g') p (i + g') (j + g') (k + g')) =
      mem ((c.1 * (D'.N1 / D'.C1) + i) / (D.N1 / D.C1), (c.2.1 * (D'.N2 / D'.C2) + j) / (D.N2 / D.C2), (c.2.2 * (D'.N3 / D'.C3) + k) / (D.N3 / D.C3))
        (at4 (D.N1 / D.C1 + 2 * g) (D.N2 / D.C2 + 2 * g) (D.N3 / D.C3 + 2 * g) p ((c.1 * (D'.N1 / D'.C1) + i) % (D.N1 / D.C1) + g)
          ((c.2.1 * (D'.N2 / D'.C2) + j) % (D.N2 / D.C2) + g) ((c.2.2 * (D'.N3 / D'.C3) + k) % (D.N3 / D.C3) + g)) := by
  have hw := C141_place_lead D hD g m rnd .dbl mem order ho file (c.1 * (D'.N1 / D'.C1) + i) (c.2.1 * (D'.N2 / D'.C2) + j) (c.2.2 * (D'.N3 / D'.C3) + k) p
    (hN.1 ▸ zone_back hD'.d1 hc.1 hi) (hN.2.1 ▸ zone_back hD'.d2 hc.2.1 hj) (hN.2.2 ▸ zone_back hD'.d3 hc.2.2 hk) hp
  have h := fetch [cd m, zd D'.N1 D'.C1 g', zd D'.N2 D'.C2 g', zd D'.N3 D'.C3 g']
    (by simp only [List.forall_mem_cons]; exact ⟨cd_good m, zd_good hD'.c1 hD'.d1, zd_good hD'.c2 hD'.d2, zd_good hD'.c3 hD'.d3, by simp⟩)
    [0, c.1, c.2.1, c.2.2] (.cons one_pos (.cons hc.1 (.cons hc.2.1 (.cons hc.2.2 .nil)))) fill
    (writeAll rnd .dbl (leadSlab D g m) mem order file) old [p, i, j, k]
    (.cons (by simpa [Dim.count, cd, Dim.n, Dim.more] using hp) (.cons hi (.cons hj (.cons hk .nil))))
  rw [← lead_eq] at h
  have f1 : flat (List.zipWith Dim.size [cd m, zd D'.N1 D'.C1 g', zd D'.N2 D'.C2 g', zd D'.N3 D'.C3 g'] [0, c.1, c.2.1, c.2.2])
      (shift ([cd m, zd D'.N1 D'.C1 g', zd D'.N2 D'.C2 g', zd D'.N3 D'.C3 g'].map Dim.ghosts) [p, i, j, k]) =
      at4 (D'.N1 / D'.C1 + 2 * g') (D'.N2 / D'.C2 + 2 * g') (D'.N3 / D'.C3 + 2 * g') p (i + g') (j + g') (k + g') := by
    simp [flat, shift, zd, cd, Dim.size, Dim.n, Dim.more, at4]
    ring
  have s1 : (zd D'.N1 D'.C1 g').start c.1 = c.1 * (D'.N1 / D'.C1) := Dim.start_eq (zd_good hD'.c1 hD'.d1) c.1
  have s2 : (zd D'.N2 D'.C2 g').start c.2.1 = c.2.1 * (D'.N2 / D'.C2) := Dim.start_eq (zd_good hD'.c2 hD'.d2) c.2.1
  have s3 : (zd D'.N3 D'.C3 g').start c.2.2 = c.2.2 * (D'.N3 / D'.C3) := Dim.start_eq (zd_good hD'.c3 hD'.d3) c.2.2
  have s4 : (cd m).start 0 = 0 := by simp [Dim.start, Decomp.start]
  have f2 : flat ([cd m, zd D'.N1 D'.C1 g', zd D'.N2 D'.C2 g', zd D'.N3 D'.C3 g'].map Dim.ftot)
      (shift (List.zipWith Dim.start [cd m, zd D'.N1 D'.C1 g', zd D'.N2 D'.C2 g', zd D'.N3 D'.C3 g'] [0, c.1, c.2.1, c.2.2]) [p, i, j, k]) =
      at4 D.N1 D.N2 D.N3 p (c.1 * (D'.N1 / D'.C1) + i) (c.2.1 * (D'.N2 / D'.C2) + j) (c.2.2 * (D'.N3 / D'.C3) + k) := by
    simp only [shift, List.zipWith_cons_cons, s1, s2, s3, s4, List.zipWith_nil_left, List.map_cons, List.map_nil, flat, List.prod_cons, List.prod_nil]
    simp [zd, cd, Dim.ftot, at4, hN.1, hN.2.1, hN.2.2]
    ring
  rw [f1, f2, hw] at h
  rw [h]
  rfl

/-- **C141.** Ghost zones are left as they were by reading. -/
theorem C141_reread_ghosts (D : Div) (hD : Even D) (g m : ℕ) (file : ℕ → Option V) (fill : V) (old : ℕ → V) (c : ℕ × ℕ × ℕ)
    (hc : c.1 < D.C1 ∧ c.2.1 < D.C2 ∧ c.2.2 < D.C3) (i j k p : ℕ) (hi : i < D.N1 / D.C1 + 2 * g) (hj : j < D.N2 / D.C2 + 2 * g) (hk : k < D.N3 / D.C3 + 2 * g)
    (hp : p < m) (hg : ¬ ((g ≤ i ∧ i < D.N1 / D.C1 + g) ∧ (g ≤ j ∧ j < D.N2 / D.C2 + g) ∧ (g ≤ k ∧ k < D.N3 / D.C3 + g))) :
    readRank fill (vecSlab D g m c) file old (at4 (D.N2 / D.C2 + 2 * g) (D.N3 / D.C3 + 2 * g) m i j k p) =
      old (at4 (D.N2 / D.C2 + 2 * g) (D.N3 / D.C3 + 2 * g) m i j k p) := by
  have hcc : Coord [c.1, c.2.1, c.2.2, 0] [zd D.N1 D.C1 g, zd D.N2 D.C2 g, zd D.N3 D.C3 g, cd m] :=
    .cons hc.1 (.cons hc.2.1 (.cons hc.2.2 (.cons one_pos .nil)))
  have f1 : flat (List.zipWith Dim.size [zd D.N1 D.C1 g, zd D.N2 D.C2 g, zd D.N3 D.C3 g, cd m] [c.1, c.2.1, c.2.2, 0]) [i, j, k, p] =
      at4 (D.N2 / D.C2 + 2 * g) (D.N3 / D.C3 + 2 * g) m i j k p := by
    simp [flat, zd, cd, Dim.size, Dim.n, Dim.more, at4]
    ring
  rw [vec_eq, ← f1]
  refine fetch_else _ (by simp only [List.forall_mem_cons]; exact ⟨zd_good hD.c1 hD.d1, zd_good hD.c2 hD.d2, zd_good hD.c3 hD.d3, cd_good m, by simp⟩)
    _ hcc _ _ _ _ ?_
  intro x hx he
  have e := flat_inj _ _ _ (list_mem_box _ _ _ hcc hx)
    (List.Forall₂.cons (by simpa [Dim.size, zd, Dim.n, Dim.more] using hi) (.cons (by simpa [Dim.size, zd, Dim.n, Dim.more] using hj)
      (.cons (by simpa [Dim.size, zd, Dim.n, Dim.more] using hk) (.cons (by simpa [Dim.size, cd, Dim.n, Dim.more] using hp) .nil)))) he
  cases hx with
  | cons a1 hx =>
    cases hx with
    | cons a2 hx =>
      cases hx with
      | cons a3 hx =>
        cases hx with
        | cons a4 hx =>
          cases hx
          simp only [shift, List.map_cons, List.map_nil, List.zipWith_cons_cons, List.cons.injEq] at e
          simp only [Dim.count, zd, Dim.n, Dim.more] at a1 a2 a3 e
          apply hg
          simp at a1 a2 a3
          omega

/-! ## The output rank alone -/

theorem multi_zero (dims : List ℕ) (h : dims ≠ []) : multi (dims.map fun _ => 0) = [] := by
  cases dims with
  | nil => exact absurd rfl h
  | cons d ds => simp [multi]

theorem fits_self : ∀ dims : List ℕ, fits dims (dims.map fun _ => 0) dims = true
  | [] => rfl
  | d :: ds => by
    have ih := fits_self ds
    simp only [fits, shift, List.map_cons, List.zipWith_cons_cons, List.zip_cons_cons, List.all_cons, Bool.and_eq_true, decide_eq_true_eq] at ih ⊢
    exact ⟨by omega, ih⟩

theorem shift_zero : ∀ (dims i : List ℕ), i.length = dims.length → shift (dims.map fun _ => 0) i = i
  | [], i, h => by rw [List.length_eq_zero_iff.1 h]; rfl
  | d :: ds, i :: is, h => by
    have := shift_zero ds is (by simpa using h)
    simp only [shift, List.map_cons, List.zipWith_cons_cons, Nat.zero_add] at this ⊢
    rw [this]

theorem sole_io (dims : List ℕ) : points (soleSlab dims true) = (multi dims).map fun i => (flat dims i, flat dims i) := by
  unfold points soleSlab
  simp only [if_true, fits_self, Bool.and_self]
  refine List.map_congr_left fun i hi => ?_
  rw [mem_multi] at hi
  rw [shift_zero dims i hi.length_eq]

theorem sole_else (dims : List ℕ) (h : dims ≠ []) : points (soleSlab dims false) = [] := by
  unfold points soleSlab
  simp only [Bool.false_eq_true, if_false, multi_zero dims h, List.map_nil, ite_self]

/-- **C141.** An array written by the output rank alone is in the file as that rank has it, whatever the others have. -/
theorem C141_sole (dims : List ℕ) (hd : dims ≠ []) (io : R → Bool) (r : R) (hr : io r = true) (order : List R) (hmem : r ∈ order)
    (hone : ∀ r' ∈ order, io r' = true → r' = r) (rnd : V → V) (kind : Kind) (mem : R → ℕ → V) (file : ℕ → Option V) (i : List ℕ)
    (hi : List.Forall₂ (· < ·) i dims) :
    writeAll rnd kind (fun r => soleSlab dims (io r)) mem order file (flat dims i) = some (conv rnd kind (mem r (flat dims i))) := by
  rw [writeAll_put]
  refine put_eq _ _ _ _ ?_ (Or.inl ?_)
  · intro x hx hp
    obtain ⟨r', hr', hx⟩ := List.mem_flatMap.1 hx
    cases hio : io r' with
    | false =>
      rw [hio, sole_else dims hd] at hx
      simp at hx
    | true =>
      obtain rfl := hone r' hr' hio
      rw [hio, sole_io] at hx
      obtain ⟨q, hq, rfl⟩ := List.mem_map.1 hx
      obtain ⟨j, _, rfl⟩ := List.mem_map.1 hq
      simp only at hp ⊢
      rw [hp]
  · refine ⟨(flat dims i, some (conv rnd kind (mem r (flat dims i)))), List.mem_flatMap.2 ⟨r, hmem, ?_⟩, rfl⟩
    rw [hr, sole_io]
    exact List.mem_map.2 ⟨_, List.mem_map.2 ⟨i, (mem_multi _ _).2 hi, rfl⟩, rfl⟩

/-- **C141.** Reading it: the output rank gets what is in the file, the others keep what they had. -/
theorem C141_sole_read (dims : List ℕ) (hd : dims ≠ []) (fill : V) (file : ℕ → Option V) (old : ℕ → V) (i : List ℕ) (hi : List.Forall₂ (· < ·) i dims) :
    readRank fill (soleSlab dims true) file old (flat dims i) = (file (flat dims i)).getD fill ∧ readRank fill (soleSlab dims false) file old = old := by
  constructor
  · unfold readRank
    rw [sole_io]
    refine put_eq _ _ _ _ ?_ (Or.inl ⟨_, List.mem_map.2 ⟨_, List.mem_map.2 ⟨i, (mem_multi _ _).2 hi, rfl⟩, rfl⟩, rfl⟩)
    intro x hx hp
    obtain ⟨q, hq, rfl⟩ := List.mem_map.1 hx
    obtain ⟨j, _, rfl⟩ := List.mem_map.1 hq
    simp only at hp ⊢
    rw [hp]
  · unfold readRank
    rw [sole_else dims hd]
    rfl

/-! ## Buffers -/

/-- The stores of a loop, in order. -/
def stores (w : ℕ) (set : List ℕ → List (ℕ × V)) : List (List ℕ) → ℕ → List (ℕ × Option V)
  | [], _ => []
  | z :: L, n => ((set z).map fun x => (n + x.1, some x.2)) ++ stores w set L (n + w)

theorem pack_put (w : ℕ) (set : List ℕ → List (ℕ × V)) : ∀ (L : List (List ℕ)) (s : ℕ → Option V) (n : ℕ),
    (L.foldl (fun (s : (ℕ → Option V) × ℕ) z => (put s.1 ((set z).map fun x => (s.2 + x.1, some x.2)), s.2 + w)) (s, n)).1 = put s (stores w set L n)
  | [], _, _ => rfl
  | z :: L, s, n => by
    rw [List.foldl_cons, pack_put w set L, stores, put_append]

theorem mem_stores (w : ℕ) (set : List ℕ → List (ℕ × V)) (x : ℕ × Option V) : ∀ (L : List (List ℕ)) (n : ℕ),
    x ∈ stores w set L n ↔ ∃ t, ∃ z, L[t]? = some z ∧ ∃ y ∈ set z, x = (n + t * w + y.1, some y.2)
  | [], n => by simp [stores]
  | z :: L, n => by
    rw [stores, List.mem_append, mem_stores w set x L]
    constructor
    · rintro (h | ⟨t, z', h1, y, hy, rfl⟩)
      · obtain ⟨y, hy, rfl⟩ := List.mem_map.1 h
        exact ⟨0, z, rfl, y, hy, by simp⟩
      · refine ⟨t + 1, z', by simpa using h1, y, hy, ?_⟩
        congr 1
        ring
    · rintro ⟨t, z', h1, y, hy, rfl⟩
      cases t with
      | zero =>
        left
        simp only [List.getElem?_cons_zero, Option.some.injEq] at h1
        subst h1
        exact List.mem_map.2 ⟨y, hy, by simp⟩
      | succ t =>
        right
        refine ⟨t, z', by simpa using h1, y, hy, ?_⟩
        congr 1
        ring

theorem multi_get (counts : List ℕ) (t : ℕ) (z : List ℕ) (h : (multi counts)[t]? = some z) : flat counts z = t := by
  have h1 : ((multi counts).map (flat counts))[t]? = some (flat counts z) := by rw [List.getElem?_map, h]; rfl
  rw [multi_flat] at h1
  obtain ⟨h2, h3⟩ := List.getElem?_eq_some_iff.1 h1
  rw [List.getElem_range] at h3
  exact h3.symm

theorem get_multi (counts z : List ℕ) (hz : List.Forall₂ (· < ·) z counts) : (multi counts)[flat counts z]? = some z := by
  obtain ⟨t, ht, e⟩ := List.getElem_of_mem ((mem_multi counts z).2 hz)
  have h1 : (multi counts)[t]? = some z := List.getElem?_eq_some_iff.2 ⟨ht, e⟩
  rw [multi_get counts t z h1, h1]

/-- **C141.** A buffer filled in a loop over zones has, for every zone and every component, what the loop set for it, at the place from which it is written; a
component the loop does not set is never initialised. -/
theorem C141_buffer (counts : List ℕ) (w : ℕ) (set : List ℕ → List (ℕ × V)) (hw : ∀ z, ∀ x ∈ set z, x.1 < w) (z : List ℕ)
    (hz : List.Forall₂ (· < ·) z counts) (l : ℕ) (hl : l < w) :
    (∀ v, (l, v) ∈ set z → (∀ v', (l, v') ∈ set z → v' = v) → pack counts w set (flat counts z * w + l) = some v) ∧
    ((∀ v, (l, v) ∉ set z) → pack counts w set (flat counts z * w + l) = none) := by
  have hfind : ∀ x ∈ stores w set (multi counts) 0, x.1 = flat counts z * w + l → ∃ v, (l, v) ∈ set z ∧ x.2 = some v := by
    intro x hx hp
    obtain ⟨t, z', h1, y, hy, rfl⟩ := (mem_stores w set x _ _).1 hx
    have hy' := hw z' y hy
    simp only [Nat.zero_add] at hp ⊢
    have hw0 : 0 < w := by omega
    have e1 : (t * w + y.1) / w = t := by rw [Nat.add_comm, Nat.add_mul_div_right _ _ hw0, Nat.div_eq_of_lt hy']; omega
    have e2 : (flat counts z * w + l) / w = flat counts z := by rw [Nat.add_comm, Nat.add_mul_div_right _ _ hw0, Nat.div_eq_of_lt hl]; omega
    have et : t = flat counts z := by rw [← e1, ← e2, hp]
    subst et
    rw [get_multi counts z hz, Option.some.injEq] at h1
    subst h1
    have : y.1 = l := by omega
    exact ⟨y.2, by rw [← this]; exact hy, rfl⟩
  have hput : pack counts w set = put (fun _ => none) (stores w set (multi counts) 0) := pack_put w set _ _ _
  rw [hput]
  constructor
  · intro v hv hu
    refine put_eq _ _ _ _ ?_ (Or.inl ⟨(flat counts z * w + l, some v), ?_, rfl⟩)
    · intro x hx hp
      obtain ⟨v', h1, h2⟩ := hfind x hx hp
      rw [h2, hu v' h1]
    · exact (mem_stores w set _ _ _).2 ⟨flat counts z, z, get_multi counts z hz, (l, v), hv, by simp⟩
  · intro hn
    refine put_ne _ _ _ ?_
    intro x hx hp
    obtain ⟨v', h1, _⟩ := hfind x hx hp
    exact hn v' h1

/-- **C141.** A buffer whose loop sets all components in order (coordinates, metric, connection, transformations) is complete. -/
theorem C141_buffer_full (counts : List ℕ) (w : ℕ) (f : List ℕ → ℕ → V) (z : List ℕ) (hz : List.Forall₂ (· < ·) z counts) (l : ℕ) (hl : l < w) :
    pack counts w (setAll w f) (flat counts z * w + l) = some (f z l) := by
  refine (C141_buffer counts w (setAll w f) ?_ z hz l hl).1 (f z l) ?_ ?_
  · intro z x hx
    obtain ⟨y, hy, rfl⟩ := List.mem_map.1 hx
    exact List.mem_range.1 hy
  · exact List.mem_map.2 ⟨l, List.mem_range.2 hl, rfl⟩
  · intro v' hv
    obtain ⟨y, _, e⟩ := List.mem_map.1 hv
    simp only [Prod.mk.injEq] at e
    rw [← e.2, e.1]

/-! ## What fails -/

theorem xbl_component (D : Div) (hD : Even D) (r th phi : ℕ × ℕ × ℕ → List ℕ → V) (order : List (ℕ × ℕ × ℕ)) (ho : Ranks D order) (i j k : ℕ)
    (hi : i < D.N1) (hj : j < D.N2) (hk : k < D.N3) (p : ℕ) (hp : p < 4) :
    gridXbl D r th phi order (at4 D.N2 D.N3 4 i j k p) =
      some (pack [D.n1, D.n2, D.n3] 4 (setXbl (r (i / (D.N1 / D.C1), j / (D.N2 / D.C2), k / (D.N3 / D.C3)))
        (th (i / (D.N1 / D.C1), j / (D.N2 / D.C2), k / (D.N3 / D.C3))) (phi (i / (D.N1 / D.C1), j / (D.N2 / D.C2), k / (D.N3 / D.C3))))
        (flat [D.n1, D.n2, D.n3] [i % (D.N1 / D.C1), j % (D.N2 / D.C2), k % (D.N3 / D.C3)] * 4 + p)) := by
  unfold gridXbl
  rw [C141_place_vec D hD 0 4 id .dbl _ order ho _ i j k p hi hj hk hp]
  simp only [conv, id]
  congr 2
  simp [at4, flat, Div.n2, Div.n3, Decomp.stored]
  ring

theorem mod_box {N C x : ℕ} (h : 0 < C) (hd : C ∣ N) (hx : x < N) : x % (N / C) < N / C :=
  Nat.mod_lt _ (Nat.div_pos (Nat.le_of_dvd (by omega) hd) h)

/-- **C141.** For every grid and division, the time component of the Boyer-Lindquist coordinates of every zone in the grid file is memory that was never set; the
other three are the coordinates of the zone. -/
theorem C141_xbl (D : Div) (hD : Even D) (r th phi : ℕ × ℕ × ℕ → List ℕ → V) (order : List (ℕ × ℕ × ℕ)) (ho : Ranks D order) (i j k : ℕ)
    (hi : i < D.N1) (hj : j < D.N2) (hk : k < D.N3) :
    gridXbl D r th phi order (at4 D.N2 D.N3 4 i j k 0) = some none ∧
    gridXbl D r th phi order (at4 D.N2 D.N3 4 i j k 1) =
      some (some (r (i / (D.N1 / D.C1), j / (D.N2 / D.C2), k / (D.N3 / D.C3)) [i % (D.N1 / D.C1), j % (D.N2 / D.C2), k % (D.N3 / D.C3)])) ∧
    gridXbl D r th phi order (at4 D.N2 D.N3 4 i j k 2) =
      some (some (th (i / (D.N1 / D.C1), j / (D.N2 / D.C2), k / (D.N3 / D.C3)) [i % (D.N1 / D.C1), j % (D.N2 / D.C2), k % (D.N3 / D.C3)])) ∧
    gridXbl D r th phi order (at4 D.N2 D.N3 4 i j k 3) =
      some (some (phi (i / (D.N1 / D.C1), j / (D.N2 / D.C2), k / (D.N3 / D.C3)) [i % (D.N1 / D.C1), j % (D.N2 / D.C2), k % (D.N3 / D.C3)])) := by
  have hz : List.Forall₂ (· < ·) [i % (D.N1 / D.C1), j % (D.N2 / D.C2), k % (D.N3 / D.C3)] [D.n1, D.n2, D.n3] :=
    .cons (mod_box hD.c1 hD.d1 hi) (.cons (mod_box hD.c2 hD.d2 hj) (.cons (mod_box hD.c3 hD.d3 hk) .nil))
  have hb := fun l hl => C141_buffer [D.n1, D.n2, D.n3] 4 (setXbl (r (i / (D.N1 / D.C1), j / (D.N2 / D.C2), k / (D.N3 / D.C3)))
    (th (i / (D.N1 / D.C1), j / (D.N2 / D.C2), k / (D.N3 / D.C3))) (phi (i / (D.N1 / D.C1), j / (D.N2 / D.C2), k / (D.N3 / D.C3))))
    (by intro z x hx; simp only [setXbl, List.mem_cons, List.not_mem_nil, or_false] at hx; rcases hx with rfl | rfl | rfl <;> simp) _ hz l hl
  refine ⟨?_, ?_, ?_, ?_⟩
  · rw [xbl_component D hD r th phi order ho i j k hi hj hk 0 (by omega), (hb 0 (by omega)).2 (by simp [setXbl])]
  · rw [xbl_component D hD r th phi order ho i j k hi hj hk 1 (by omega), 
      (hb 1 (by omega)).1 (r (i / (D.N1 / D.C1), j / (D.N2 / D.C2), k / (D.N3 / D.C3)) [i % (D.N1 / D.C1), j % (D.N2 / D.C2), k % (D.N3 / D.C3)]) (by simp [setXbl]) (by simp [setXbl])]
  · rw [xbl_component D hD r th phi order ho i j k hi hj hk 2 (by omega), 
      (hb 2 (by omega)).1 (th (i / (D.N1 / D.C1), j / (D.N2 / D.C2), k / (D.N3 / D.C3)) [i % (D.N1 / D.C1), j % (D.N2 / D.C2), k % (D.N3 / D.C3)]) (by simp [setXbl]) (by simp [setXbl])]
  · rw [xbl_component D hD r th phi order ho i j k hi hj hk 3 (by omega), 
      (hb 3 (by omega)).1 (phi (i / (D.N1 / D.C1), j / (D.N2 / D.C2), k / (D.N3 / D.C3)) [i % (D.N1 / D.C1), j % (D.N2 / D.C2), k % (D.N3 / D.C3)]) (by simp [setXbl]) (by simp [setXbl])]

/-- **C141.** Saving the spectrum in a restart file and reading it back rounds every number in it to single precision. -/
theorem C141_spectrum (dims : List ℕ) (hd : dims ≠ []) (io : R → Bool) (r : R) (hr : io r = true) (order : List R) (hmem : r ∈ order)
    (hone : ∀ r' ∈ order, io r' = true → r' = r) (rnd : V → V) (mem : R → ℕ → V) (file : ℕ → Option V) (fill : V) (old : ℕ → V) (i : List ℕ)
    (hi : List.Forall₂ (· < ·) i dims) :
    readRank fill (soleSlab dims true) (writeAll rnd spectrumKind (fun r => soleSlab dims (io r)) mem order file) old (flat dims i) = rnd (mem r (flat dims i)) := by
  rw [(C141_sole_read dims hd fill _ old i hi).1, C141_sole dims hd io r hr order hmem hone rnd spectrumKind mem file i hi]
  rfl

/-- Part of the property: what is saved and read back by the output rank is the same. -/
def SpectrumKept (V : Type*) (rnd : V → V) : Prop :=
  ∀ (dims : List ℕ) (mem old : ℕ → V) (fill : V) (i : List ℕ), List.Forall₂ (· < ·) i dims → dims ≠ [] →
    readRank fill (soleSlab dims true) (writeAll rnd spectrumKind (fun _ : Unit => soleSlab dims true) (fun _ => mem) [()] fun _ => none) old (flat dims i) =
      mem (flat dims i)

/-- Part of the property: every number in the grid file was set by the run. -/
def GridSet (V : Type*) : Prop :=
  ∀ (D : Div), Even D → ∀ (r th phi : ℕ × ℕ × ℕ → List ℕ → V) (order : List (ℕ × ℕ × ℕ)), Ranks D order → ∀ i j k p, i < D.N1 → j < D.N2 → k < D.N3 → p < 4 →
    ∃ v, gridXbl D r th phi order (at4 D.N2 D.N3 4 i j k p) = some (some v)

/-- The property in full. -/
def FullC141 (V : Type*) (rnd : V → V) : Prop := SpectrumKept V rnd ∧ GridSet V

/-- Two zones, one rank each. -/
def twoZones : Div := ⟨2, 1, 1, 2, 1, 1⟩

theorem twoZones_even : Even twoZones := ⟨by decide, by decide, by decide, by decide, by decide, by decide⟩

theorem twoZones_ranks : Ranks twoZones [(1, 0, 0), (0, 0, 0)] := by
  rintro ⟨a, b, c⟩
  simp only [twoZones, List.mem_cons, Prod.mk.injEq, List.not_mem_nil, or_false]
  omega

/-- **C141 fails in full**, in both respects: where single precision loses some number, the spectrum is not kept; and the time component is never set. -/
theorem C141_full_false (rnd : V → V) (x : V) (hx : rnd x ≠ x) : ¬ SpectrumKept V rnd ∧ ¬ GridSet V ∧ ¬ FullC141 V rnd := by
  have h1 : ¬ SpectrumKept V rnd := by
    intro h
    have e := h [1] (fun _ => x) (fun _ => x) x [0] (.cons one_pos .nil) (by simp)
    rw [C141_spectrum [1] (by simp) (fun _ => true) () rfl [()] (by simp) (by simp) rnd (fun _ _ => x) _ x _ [0] (.cons one_pos .nil)] at e
    exact hx e
  have h2 : ¬ GridSet V := by
    intro h
    obtain ⟨v, hv⟩ := h twoZones twoZones_even (fun _ _ => x) (fun _ _ => x) (fun _ _ => x) _ twoZones_ranks 1 0 0 0 (by decide) (by decide) (by decide) (by decide)
    rw [(C141_xbl twoZones twoZones_even _ _ _ _ twoZones_ranks 1 0 0 (by decide) (by decide) (by decide)).1] at hv
    simp at hv
  exact ⟨h1, h2, fun h => h1 h.1⟩

/-- The hypotheses of the theorems above are met: zone 1 of the two zones, held by the second rank inside one layer of ghost zones. -/
example : writeAll id .dbl (vecSlab twoZones 1 2) (fun c p => 100 * c.1 + p) [(1, 0, 0), (0, 0, 0)] (fun _ => none) (at4 1 1 2 1 0 0 1) = some 127 :=
  C141_place_vec twoZones twoZones_even 1 2 id .dbl _ _ twoZones_ranks _ 1 0 0 1 (by decide) (by decide) (by decide) (by decide)

/-- Written by two ranks, read by one. -/
example : readRank 0 (vecSlab ⟨2, 1, 1, 1, 1, 1⟩ 0 2 (0, 0, 0))
    (writeAll id .dbl (vecSlab twoZones 1 2) (fun c p => 100 * c.1 + p) [(1, 0, 0), (0, 0, 0)] (fun _ => none)) (fun _ => 7) (at4 1 1 2 1 0 0 1) = 127 :=
  C141_reread_vec twoZones ⟨2, 1, 1, 1, 1, 1⟩ twoZones_even ⟨by decide, by decide, by decide, by decide, by decide, by decide⟩ (by decide) 1 0 2 id _ _
    twoZones_ranks _ 0 _ (0, 0, 0) (by decide) 1 0 0 1 (by decide) (by decide) (by decide) (by decide)

/-- The last corner is written by the second rank. -/
example : writeAll id .dbl (faceSlab twoZones 4) (fun c p => 100 * c.1 + p) [(1, 0, 0), (0, 0, 0)] (fun _ => none) (at4 2 2 4 2 1 1 3) = some 131 :=
  C141_place_faces twoZones twoZones_even (by decide) (by decide) (by decide) 4 id .dbl _ _ twoZones_ranks _ 2 1 1 3 (by decide) (by decide) (by decide) (by decide)

/-- A conversion that loses numbers. -/
example : ¬ FullC141 ℚ (fun x => ⌊x⌋) := (C141_full_false _ (1 / 2) (by decide +kernel)).2.2

end Nubhlight.ArrayIO
