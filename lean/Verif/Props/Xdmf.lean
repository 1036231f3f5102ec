import Verif.Common
import Verif.Model.Xdmf

set_option autoImplicit false
set_option linter.unusedSectionVars false

/-! # C167: what the index of a dump names exists -/

namespace Nubhlight.Xdmf

/-- Specification: the path a name written in a file below `dumps/xmf/` stands for. -/
def resolve : List Char → List Char
  | '.' :: '.' :: '/' :: r => "dumps/".toList ++ r
  | r => "dumps/xmf/".toList ++ r

/-- Specification: a part of an array, first indices and numbers of indices, lies inside the array. -/
def Inside : List ℕ → List ℤ → List ℤ → Prop
  | [], [], [] => True
  | n :: ns, s :: ss, c :: cs => 0 ≤ s ∧ 0 ≤ c ∧ s + c ≤ n ∧ Inside ns ss cs
  | _, _, _ => False

/-- Specification: an array the index names is in the file it names, has the size and the precision stated, and the part shown is a part of it. -/
def Exists (dk : List (List Char × List DSet)) (it : Item) : Prop :=
  ∃ f ∈ dk, f.1 = resolve it.file ∧ (∃ s ∈ f.2, s.name = it.dset ∧ s.dims = it.dims ∧ s.bits = it.bits) ∧ Inside it.dims it.start it.count

/-- **C167 (full statement).** After every dump of every build with a positive spacing of full dumps, for every radius up to which to show data,
everything the index names exists. -/
def FullC167 : Prop := ∀ (b : Build) (mks : Bool) (startx dx Rout_vis : ℝ) (DTf : ℤ) (d : ℕ), 0 < b.n1 → 0 < b.n2 → 0 < b.n3 → 0 < dx → 0 < DTf →
  0 < Rout_vis → ∃ l, items b (iX1max mks startx dx Rout_vis b.n1) DTf d = some l ∧ ∀ it ∈ l, Exists (disk b DTf d) it

theorem resolve_grid : resolve gname = "dumps/grid.h5".toList := rfl

theorem resolve_dump (d : ℕ) : resolve (dname d) = "dumps/dump_".toList ++ pad8 d ++ ".h5".toList := rfl

theorem resolve_self (d : ℕ) : resolve (fname d) = "dumps/xmf/dump_".toList ++ pad8 d ++ ".xmf".toList := rfl

theorem exists_grid (b : Build) (DTf : ℤ) (d : ℕ) (it : Item) (hf : it.file = gname) (s : DSet) (hs : s ∈ gridFile b) (hn : s.name = it.dset)
    (hd : s.dims = it.dims) (hb : s.bits = it.bits) (hi : Inside it.dims it.start it.count) : Exists (disk b DTf d) it :=
  ⟨_, List.mem_cons_self .., by rw [hf, resolve_grid], ⟨s, hs, hn, hd, hb⟩, hi⟩

theorem exists_dump (b : Build) (DTf : ℤ) (d : ℕ) (it : Item) (hf : it.file = dname d) (s : DSet)
    (hs : s ∈ dumpFile b (decide (Int.tmod d DTf = 0))) (hn : s.name = it.dset)
    (hd : s.dims = it.dims) (hb : s.bits = it.bits) (hi : Inside it.dims it.start it.count) : Exists (disk b DTf d) it := by
  refine ⟨("dumps/dump_".toList ++ pad8 d ++ ".h5".toList, dumpFile b (decide (Int.tmod d DTf = 0))), ?_, by rw [hf, resolve_dump],
    ⟨s, hs, hn, hd, hb⟩, hi⟩
  unfold disk
  refine List.mem_cons_of_mem _ (List.mem_map.2 ⟨d, List.mem_range.2 (by omega), rfl⟩)

theorem inside3 (b : Build) (iX : ℤ) (h0 : 0 ≤ iX) (h1 : iX ≤ b.n1) : Inside [b.n1, b.n2, b.n3] [0, 0, 0] [iX, b.n2, b.n3] := by
  simp [Inside, h0, h1]

theorem inside4 (b : Build) (iX : ℤ) (h0 : 0 ≤ iX) (h1 : iX ≤ b.n1) (n mu : ℕ) (hm : mu < n) :
    Inside [b.n1, b.n2, b.n3, n] [0, 0, 0, (mu : ℤ)] [iX, b.n2, b.n3, 1] := by
  simp [Inside, h0, h1]
  omega

theorem inside5 (b : Build) (iX : ℤ) (h0 : 0 ≤ iX) (h1 : iX ≤ b.n1) (mu nu : ℕ) (hm : mu < 4) (hn : nu < 4) :
    Inside [b.n1, b.n2, b.n3, 4, 4] [0, 0, 0, (mu : ℤ), (nu : ℤ)] [iX, b.n2, b.n3, 1, 1] := by
  simp [Inside, h0, h1]
  omega

/-- Specification: the titles of components of vectors. -/
def IsVector (it : Item) : Prop := it.dset = "jcon" ∨ it.dset = "Jrad"

theorem tensor_mem (b : Build) (iX : ℤ) (name : String) (src : List Char) (prec : ℕ) (it : Item) (h : it ∈ tensorMeta b iX name src prec) :
    ∃ mu nu, mu < 4 ∧ nu < 4 ∧ it = tensorComponent b iX name src prec mu nu := by
  unfold tensorMeta at h
  rw [List.mem_flatMap] at h
  obtain ⟨mu, hmu, h⟩ := h
  obtain ⟨nu, hnu, h⟩ := List.mem_map.1 h
  exact ⟨mu, nu, List.mem_range.1 hmu, List.mem_range.1 hnu, h.symm⟩

theorem vec_mem (b : Build) (iX : ℤ) (d : ℕ) (name : String) (it : Item) (h : it ∈ vecMeta b iX d name) :
    ∃ mu, mu < 4 ∧ it = vecComponent b iX d name mu := by
  obtain ⟨mu, hmu, h⟩ := List.mem_map.1 h
  exact ⟨mu, List.mem_range.1 hmu, h.symm⟩

section
variable (b : Build) (iX : ℤ) (h0 : 0 ≤ iX) (h1 : iX ≤ b.n1) (DTf : ℤ) (d : ℕ)
include h0 h1

theorem grid_tensor (name : String) (it : Item) (h : it ∈ tensorMeta b iX name gname 64) (hn : (⟨name, tens5 b, 64⟩ : DSet) ∈ gridFile b) :
    Exists (disk b DTf d) it := by
  obtain ⟨mu, nu, hmu, hnu, rfl⟩ := tensor_mem b iX name gname 64 it h
  exact exists_grid b DTf d _ rfl _ hn rfl rfl rfl (inside5 b iX h0 h1 mu nu hmu hnu)

theorem grid_scalar (name : String) (hn : (⟨name, grid3 b, 64⟩ : DSet) ∈ gridFile b) : Exists (disk b DTf d) (scalarMeta b iX name gname 64) :=
  exists_grid b DTf d _ rfl _ hn rfl rfl rfl (inside3 b iX h0 h1)

theorem dump_scalar (name : String) (hn : (⟨name, grid3 b, 32⟩ : DSet) ∈ dumpFile b (decide (Int.tmod d DTf = 0))) :
    Exists (disk b DTf d) (scalarMeta b iX name (dname d) 32) :=
  exists_dump b DTf d _ rfl _ hn rfl rfl rfl (inside3 b iX h0 h1)

theorem full_exists (hd : Int.tmod d DTf = 0) (it : Item) (h : it ∈ fullItems b iX d) (hv : ¬ IsVector it) : Exists (disk b DTf d) it := by
  have hfull : decide (Int.tmod d DTf = 0) = true := by simp [hd]
  unfold fullItems at h
  simp only [List.mem_append, List.mem_singleton] at h
  rcases h with (((h | h) | h) | h) | h
  · subst h
    exact dump_scalar b iX h0 h1 DTf d "divb" (by rw [hfull]; simp [dumpFile])
  · obtain ⟨mu, _, rfl⟩ := vec_mem b iX d "jcon" it h
    exact absurd (Or.inl rfl) hv
  · cases he : b.eosvars with
    | false => rw [he] at h; simp at h
    | true =>
      rw [he] at h
      simp only [if_true, List.mem_cons, List.not_mem_nil, or_false] at h
      rcases h with h | h | h | h <;> subst h <;>
        exact dump_scalar b iX h0 h1 DTf d _ (by rw [hfull]; simp [dumpFile, he])
  · cases he : b.electrons with
    | false => rw [he] at h; simp at h
    | true =>
      rw [he] at h
      cases hr : b.radiation with
      | false =>
        rw [hr] at h
        simp only [if_true, Bool.false_eq_true, if_false, List.mem_cons, List.not_mem_nil, or_false] at h
        subst h
        exact dump_scalar b iX h0 h1 DTf d _ (by rw [hfull]; simp [dumpFile, he])
      | true =>
        rw [hr] at h
        simp only [if_true, List.mem_cons, List.not_mem_nil, or_false] at h
        rcases h with h | h <;> subst h <;> exact dump_scalar b iX h0 h1 DTf d _ (by rw [hfull]; simp [dumpFile, he, hr])
  · cases hr : b.radiation with
    | false => rw [hr] at h; simp at h
    | true =>
      rw [hr] at h
      simp only [if_true, List.mem_append, List.mem_singleton] at h
      rcases h with (h | h) | h
      · subst h
        exact dump_scalar b iX h0 h1 DTf d _ (by rw [hfull]; simp [dumpFile, hr])
      · obtain ⟨mu, _, rfl⟩ := vec_mem b iX d "Jrad" it h
        exact absurd (Or.inr rfl) hv
      · obtain ⟨mu, nu, hmu, hnu, rfl⟩ := tensor_mem b iX "Rmunu" (dname d) 32 it h
        exact exists_dump b DTf d _ rfl ⟨"Rmunu", tens5 b, 32⟩ (by rw [hfull]; simp [dumpFile, hr]) rfl rfl rfl
          (inside5 b iX h0 h1 mu nu hmu hnu)

/-- **C167 (partial).** For every build, spacing of full dumps and dump, if the part shown ends inside the grid, then everything the index names
that is not a component of a vector exists. Missing: vectors, see `C167_vectors`, and radii beyond the grid, see `C167_beyond`. -/
theorem C167_items_partial (hDTf : DTf ≠ 0) :
    ∃ l, items b iX DTf d = some l ∧ ∀ it ∈ l, ¬ IsVector it → Exists (disk b DTf d) it := by
  unfold items
  rw [if_neg hDTf]
  refine ⟨_, rfl, fun it h hv => ?_⟩
  simp only [List.mem_append] at h
  rcases h with ((((((h | h) | h) | h) | h) | h) | h) | h
  · obtain ⟨k, hk, rfl⟩ := List.mem_map.1 h
    refine exists_grid b DTf d _ rfl ⟨"XFcart", [b.n1 + 1, b.n2 + 1, b.n3 + 1, 4], 64⟩ (by simp [gridFile]) rfl rfl rfl ?_
    have hk4 : k < 4 := by
      simp only [List.mem_cons, List.not_mem_nil, or_false] at hk
      omega
    simp only [coordMeta, Inside]
    push_cast
    refine ⟨?_, ?_, ?_, ?_, ?_, ?_, ?_, ?_, ?_, ?_, ?_, ?_, trivial⟩ <;> first | trivial | omega
  · exact grid_tensor b iX h0 h1 DTf d _ it h (by simp [gridFile])
  · exact grid_tensor b iX h0 h1 DTf d _ it h (by simp [gridFile])
  · exact grid_tensor b iX h0 h1 DTf d _ it h (by simp [gridFile])
  · exact grid_tensor b iX h0 h1 DTf d _ it h (by simp [gridFile])
  · simp only [List.mem_cons, List.not_mem_nil, or_false] at h
    rcases h with h | h <;> subst h <;> exact grid_scalar b iX h0 h1 DTf d _ (by simp [gridFile])
  · obtain ⟨ip, hip, rfl⟩ := List.mem_map.1 h
    exact exists_dump b DTf d _ rfl ⟨"P", [b.n1, b.n2, b.n3, nvar b], 32⟩ (by simp [dumpFile]) rfl rfl rfl
      (inside4 b iX h0 h1 _ ip (List.mem_range.1 hip))
  · by_cases hd : Int.tmod d DTf = 0
    · rw [if_pos hd] at h
      exact full_exists b iX h0 h1 DTf d hd it h hv
    · rw [if_neg hd] at h
      simp at h

end

/-- **C167 (corners).** The corners of the grid are given by the three Cartesian coordinates in their order: components 1, 2 and 3 of `XFcart`,
of which component 0 is the time. -/
theorem C167_corners (b : Build) (iX DTf : ℤ) (d : ℕ) (hDTf : DTf ≠ 0) :
    ∃ l, items b iX DTf d = some l ∧ (l.filter fun it => it.dset = "XFcart").map (fun it => (it.title, it.start.getLast?)) =
      [("", some 1), ("", some 2), ("", some 3)] := by
  have ht : ∀ name src prec, name ≠ "XFcart" → (tensorMeta b iX name src prec).filter (fun it => it.dset = "XFcart") = [] := by
    intro name src prec hn
    rw [List.filter_eq_nil_iff]
    intro it h
    obtain ⟨_, _, _, _, rfl⟩ := tensor_mem b iX name src prec it h
    simpa [tensorComponent] using hn
  have hv : ∀ name, name ≠ "XFcart" → (vecMeta b iX d name).filter (fun it => it.dset = "XFcart") = [] := by
    intro name hn
    rw [List.filter_eq_nil_iff]
    intro it h
    obtain ⟨_, _, rfl⟩ := vec_mem b iX d name it h
    simpa [vecComponent] using hn
  have hp : ((List.range (nvar b)).map fun ip : ℕ => primMeta b iX d ip).filter (fun it => it.dset = "XFcart") = [] := by
    rw [List.filter_eq_nil_iff]
    intro it h
    obtain ⟨_, _, rfl⟩ := List.mem_map.1 h
    simp [primMeta]
  have hf : (if Int.tmod d DTf = 0 then fullItems b iX d else []).filter (fun it => it.dset = "XFcart") = [] := by
    split_ifs
    · unfold fullItems
      have := ht "Rmunu" (dname d) 32 (by decide)
      have h1 := hv "jcon" (by decide)
      have h2 := hv "Jrad" (by decide)
      split_ifs <;> simp only [List.filter_append, List.filter_nil, this, h1, h2, List.append_nil] <;> simp [scalarMeta]
    · rfl
  unfold items
  rw [if_neg hDTf]
  refine ⟨_, rfl, ?_⟩
  simp only [List.filter_append, ht _ _ _ (by decide : "Lambda_h2cart_con" ≠ "XFcart"), ht _ _ _ (by decide : "Lambda_h2cart_cov" ≠ "XFcart"),
    ht _ _ _ (by decide : "gcon" ≠ "XFcart"), ht _ _ _ (by decide : "gcov" ≠ "XFcart"), hp, hf]
  simp [geomMeta, coordMeta, scalarMeta]

/-- Specification: the component of the array of primitive variables a variable is kept in. -/
def Component (b : Build) (name : String) (n : ℕ) : Prop :=
  (name, n) ∈ [("RHO", 0), ("UU", 1), ("U1", 2), ("U2", 3), ("U3", 4), ("B1", 5), ("B2", 6), ("B3", 7)] ∨
  (∃ i, b.passive[i]? = some name ∧ n = 8 + i) ∨
  (b.electrons = true ∧ ((name = "KEL" ∧ n = 7 + b.passive.length + 1) ∨ (name = "KTOT" ∧ n = 7 + b.passive.length + 2)))

/-- **C167 (variables).** In every index every variable is shown under its name: the component shown under a title is the one the variable of that
name is kept in, and all of them are shown. -/
theorem C167_variables (b : Build) (iX : ℤ) (DTf : ℤ) (d : ℕ) (hDTf : DTf ≠ 0) (name : String) (n : ℕ) (hc : Component b name n) :
    ∃ l, items b iX DTf d = some l ∧ ∃ it ∈ l, it.title = name ∧ it.dset = "P" ∧ it.file = dname d ∧ it.start = [0, 0, 0, (n : ℤ)] ∧
      it.count = [iX, b.n2, b.n3, 1] := by
  have hv : (vnams b)[n]? = some name ∧ n < nvar b := by
    unfold vnams nvar
    rcases hc with h | ⟨i, h, rfl⟩ | ⟨he, h⟩
    · simp only [List.mem_cons, Prod.mk.injEq, List.not_mem_nil, or_false] at h
      rcases h with ⟨rfl, rfl⟩ | ⟨rfl, rfl⟩ | ⟨rfl, rfl⟩ | ⟨rfl, rfl⟩ | ⟨rfl, rfl⟩ | ⟨rfl, rfl⟩ | ⟨rfl, rfl⟩ | ⟨rfl, rfl⟩ <;>
        exact ⟨rfl, by omega⟩
    · have hi : i < b.passive.length := (List.getElem?_eq_some_iff.1 h).1
      refine ⟨?_, by omega⟩
      rw [List.append_assoc, List.getElem?_append_right (by simp), List.getElem?_append_left (by simpa using hi)]
      simpa using h
    · rw [he]
      simp only [if_true]
      rcases h with ⟨rfl, rfl⟩ | ⟨rfl, rfl⟩
      · refine ⟨?_, by omega⟩
        rw [List.getElem?_append_right (by simp; omega)]
        simp
        rw [show 7 + b.passive.length - (b.passive.length + 7) = 0 by omega]
        rfl
      · refine ⟨?_, by omega⟩
        rw [List.getElem?_append_right (by simp; omega)]
        simp
        rw [show 7 + b.passive.length - (b.passive.length + 6) = 1 by omega]
        rfl
  unfold items
  rw [if_neg hDTf]
  refine ⟨_, rfl, primMeta b iX d n, ?_, ?_, rfl, rfl, rfl, rfl⟩
  · simp only [List.mem_append]
    exact Or.inl (Or.inr (List.mem_map.2 ⟨n, List.mem_range.2 hv.2, rfl⟩))
  · show (vnams b).getD n "" = name
    rw [List.getD_eq_getElem?_getD, hv.1]
    rfl

/-- No data file has the name of an index. -/
theorem index_not_data (b : Build) (DTf : ℤ) (d n : ℕ) (f : List Char × List DSet) (hf : f ∈ disk b DTf d) : f.1 ≠ resolve (fname n) := by
  rw [resolve_self]
  unfold disk at hf
  rcases List.mem_cons.1 hf with h | h
  · rw [h]
    simp
  · obtain ⟨k, _, rfl⟩ := List.mem_map.1 h
    simp

/-- **C167 (negation: vectors).** Every index of a full dump, whatever the build, names the current of four components in a file that is no data
file: the index itself. -/
theorem C167_vectors (b : Build) (iX : ℤ) (DTf : ℤ) (d : ℕ) (hDTf : DTf ≠ 0) (hd : Int.tmod d DTf = 0) (mu : ℕ) (hmu : mu < 4) :
    ∃ l, items b iX DTf d = some l ∧ ∃ it ∈ l, it.dset = "jcon" ∧ it.start = [0, 0, 0, (mu : ℤ)] ∧
      resolve it.file = "dumps/xmf/dump_".toList ++ pad8 d ++ ".xmf".toList ∧ ¬ Exists (disk b DTf d) it := by
  unfold items
  rw [if_neg hDTf, if_pos hd]
  refine ⟨_, rfl, vecComponent b iX d "jcon" mu, ?_, rfl, rfl, resolve_self d, ?_⟩
  · simp only [List.mem_append]
    refine Or.inr ?_
    unfold fullItems
    simp only [List.mem_append]
    exact Or.inl (Or.inl (Or.inl (Or.inr (List.mem_map.2 ⟨mu, List.mem_range.2 hmu, rfl⟩))))
  · rintro ⟨f, hf, he, _⟩
    exact index_not_data b DTf d d f hf he

/-- Specification: the item with the file replaced by the dump. -/
def inDump (d : ℕ) (it : Item) : Item := { it with file := "../dump_".toList ++ pad8 d ++ ".h5".toList }

theorem mem_dump_jrad (b : Build) (full : Bool) : ∀ s ∈ dumpFile b full, s.name = "Jrad" → s.dims = [b.maxnscatt + 2, b.n1, b.n2, b.n3] := by
  unfold dumpFile
  cases full <;> cases he : b.eosvars <;> cases hl : b.electrons <;> cases hr : b.radiation <;> simp

/-- **C167 (negation: counts of scatterings).** Pointed at the dump, the other vector named would still not be there: the array of that name has
another order of indices and another size, unless the grid is four zones wide in all directions. -/
theorem C167_jrad (b : Build) (iX : ℤ) (DTf : ℤ) (d : ℕ) (hDTf : DTf ≠ 0) (hd : Int.tmod d DTf = 0) (hr : b.radiation = true) (mu : ℕ) (hmu : mu < 4)
    (hn : ¬ (b.n1 = 4 ∧ b.n2 = 4 ∧ b.n3 = 4)) :
    ∃ l, items b iX DTf d = some l ∧ ∃ it ∈ l, it.dset = "Jrad" ∧ it.start = [0, 0, 0, (mu : ℤ)] ∧ ¬ Exists (disk b DTf d) it ∧
      (∃ f ∈ disk b DTf d, f.1 = resolve (inDump d it).file ∧ ∃ s ∈ f.2, s.name = "Jrad") ∧
      ∀ f ∈ disk b DTf d, ∀ s ∈ f.2, s.name = "Jrad" → s.dims ≠ it.dims := by
  unfold items
  rw [if_neg hDTf, if_pos hd]
  refine ⟨_, rfl, vecComponent b iX d "Jrad" mu, ?_, rfl, rfl, ?_, ?_, ?_⟩
  · simp only [List.mem_append]
    refine Or.inr ?_
    unfold fullItems
    rw [hr]
    simp only [List.mem_append, if_true]
    exact Or.inr (Or.inl (Or.inr (List.mem_map.2 ⟨mu, List.mem_range.2 hmu, rfl⟩)))
  · rintro ⟨f, hf, he, _⟩
    exact index_not_data b DTf d d f hf he
  · refine ⟨("dumps/dump_".toList ++ pad8 d ++ ".h5".toList, dumpFile b (decide (Int.tmod d DTf = 0))), ?_, rfl, ?_⟩
    · unfold disk
      exact List.mem_cons_of_mem _ (List.mem_map.2 ⟨d, List.mem_range.2 (by omega), rfl⟩)
    · refine ⟨⟨"Jrad", [b.maxnscatt + 2, b.n1, b.n2, b.n3], 32⟩, ?_, rfl⟩
      simp [dumpFile, hd, hr]
  · intro f hf s hs hname he
    unfold disk at hf
    rcases List.mem_cons.1 hf with h | h
    · rw [h] at hs
      revert hname
      revert s
      simp [gridFile]
    · obtain ⟨k, _, rfl⟩ := List.mem_map.1 h
      rw [mem_dump_jrad b _ s hs hname] at he
      simp only [vecComponent, List.cons.injEq, and_true] at he
      omega

/-- **C167 (extent).** On radial grids the part shown consists of the zones whose outer face is not beyond the radius asked for, if the radius is
not below the innermost face. -/
theorem C167_extent (startx dx r : ℝ) (n1 : ℕ) (hdx : 0 < dx) (hr : Real.exp startx ≤ r) (i : ℕ) :
    0 ≤ iX1max true startx dx r n1 ∧ ((i : ℤ) < iX1max true startx dx r n1 ↔ Real.exp (startx + (i + 1) * dx) ≤ r) := by
  have hr0 : 0 < r := lt_of_lt_of_le (Real.exp_pos _) hr
  have hl : startx ≤ Real.log r := by rw [← Real.log_exp startx]; exact Real.log_le_log (Real.exp_pos _) hr
  have hq : 0 ≤ (Real.log r - startx) / dx := div_nonneg (by linarith) hdx.le
  unfold iX1max blIOfR
  simp only [if_true]
  rw [if_pos hq]
  refine ⟨Int.floor_nonneg.2 hq, ?_⟩
  rw [← Int.add_one_le_iff, Int.le_floor, ← Real.le_log_iff_exp_le hr0, le_div_iff₀ hdx]
  push_cast
  constructor <;> intro h <;> linarith

/-- **C167 (extent, inside).** It ends inside the grid exactly if the radius is less than one zone beyond the outermost face. -/
theorem C167_inside (startx dx r : ℝ) (n1 : ℕ) (hdx : 0 < dx) (hr : Real.exp startx ≤ r) :
    iX1max true startx dx r n1 ≤ n1 ↔ r < Real.exp (startx + (n1 + 1) * dx) := by
  rw [← not_lt, (C167_extent startx dx r n1 hdx hr n1).2, not_le]

/-- **C167 (negation: radius).** For radii further out the corners and every variable are asked for beyond the end of the arrays. -/
theorem C167_beyond (b : Build) (startx dx r : ℝ) (hdx : 0 < dx) (hr : Real.exp (startx + (b.n1 + 1) * dx) ≤ r) (DTf : ℤ) (d : ℕ) (hDTf : DTf ≠ 0) :
    ∃ l, items b (iX1max true startx dx r b.n1) DTf d = some l ∧
      (∃ it ∈ l, it.dset = "XFcart" ∧ ¬ Exists (disk b DTf d) it) ∧ ∀ it ∈ l, it.dset = "P" → ¬ Exists (disk b DTf d) it := by
  have hr1 : Real.exp startx ≤ r := by
    refine le_trans (Real.exp_le_exp.2 ?_) hr
    have : (0 : ℝ) ≤ b.n1 := Nat.cast_nonneg _
    nlinarith
  have hi : (b.n1 : ℤ) < iX1max true startx dx r b.n1 := (C167_extent startx dx r b.n1 hdx hr1 b.n1).2.2 hr
  generalize iX1max true startx dx r b.n1 = iX at hi
  have hP : ∀ ip : ℕ, ¬ Exists (disk b DTf d) (primMeta b iX d ip) := by
    rintro ip ⟨_, _, _, _, h⟩
    simp only [primMeta, Inside] at h
    omega
  unfold items
  rw [if_neg hDTf]
  refine ⟨_, rfl, ⟨coordMeta b iX 1, ?_, rfl, ?_⟩, ?_⟩
  · simp [geomMeta]
  · rintro ⟨_, _, _, _, h⟩
    simp only [coordMeta, Inside] at h
    push_cast at h
    omega
  · intro it h hds
    have ht : ∀ name src prec, it ∈ tensorMeta b iX name src prec → it.dset = name := by
      intro name src prec h
      obtain ⟨_, _, _, _, rfl⟩ := tensor_mem b iX name src prec it h
      rfl
    have hv : ∀ name, it ∈ vecMeta b iX d name → it.dset = name := by
      intro name h
      obtain ⟨_, _, rfl⟩ := vec_mem b iX d name it h
      rfl
    simp only [List.mem_append] at h
    rcases h with ((((((h | h) | h) | h) | h) | h) | h) | h
    · obtain ⟨k, _, rfl⟩ := List.mem_map.1 h
      simp [coordMeta] at hds
    · rw [ht _ _ _ h] at hds; simp at hds
    · rw [ht _ _ _ h] at hds; simp at hds
    · rw [ht _ _ _ h] at hds; simp at hds
    · rw [ht _ _ _ h] at hds; simp at hds
    · simp only [List.mem_cons, List.not_mem_nil, or_false] at h
      rcases h with h | h <;> subst h <;> simp [scalarMeta] at hds
    · obtain ⟨ip, _, rfl⟩ := List.mem_map.1 h
      exact hP ip
    · exfalso
      split_ifs at h
      · unfold fullItems at h
        simp only [List.mem_append] at h
        rcases h with (((h | h) | h) | h) | h
        · simp at h; subst h; simp [scalarMeta] at hds
        · rw [hv _ h] at hds; simp at hds
        · split_ifs at h
          · simp at h
            rcases h with h | h | h | h <;> subst h <;> simp [scalarMeta] at hds
          · simp at h
        · split_ifs at h
          · simp at h
            rcases h with h | h <;> subst h <;> simp [scalarMeta] at hds
          · simp at h
            subst h; simp [scalarMeta] at hds
          · simp at h
        · split_ifs at h
          · simp only [List.mem_append] at h
            rcases h with (h | h) | h
            · simp at h; subst h; simp [scalarMeta] at hds
            · rw [hv _ h] at hds; simp at hds
            · rw [ht _ _ _ h] at hds; simp at hds
          · simp at h
      · simp at h

/-- **C167 (negation).** -/
theorem C167_full_false : ¬ FullC167 := by
  intro h
  obtain ⟨l, hl, hall⟩ := h ⟨16, 16, 16, [], false, false, false, 0⟩ false 0 1 1 1 0 (by norm_num) (by norm_num) (by norm_num) one_pos one_pos one_pos
  obtain ⟨l', hl', it, hit, _, _, _, hne⟩ := C167_vectors ⟨16, 16, 16, [], false, false, false, 0⟩ (iX1max false 0 1 1 16) 1 0 (by norm_num)
    (by norm_num) 1 (by norm_num)
  rw [hl] at hl'
  injection hl' with he
  subst he
  exact hne (hall it hit)

/-- The hypotheses are met: a build with two passive variables, electrons and radiation, third dump, every second dump full; and what its index
names. -/
example : (0 : ℤ) ≤ 12 ∧ (12 : ℤ) ≤ (16 : ℕ) ∧ (2 : ℤ) ≠ 0 ∧ Int.tmod (4 : ℕ) 2 = 0 ∧
    (items ⟨16, 16, 16, ["Ye", "Ye_em"], true, true, true, 3⟩ 12 2 4).map List.length = some 113 ∧
    (items ⟨16, 16, 16, ["Ye", "Ye_em"], true, true, true, 3⟩ 12 2 3).map List.length = some 81 ∧
    Component ⟨16, 16, 16, ["Ye", "Ye_em"], true, true, true, 3⟩ "Ye_em" 9 ∧
    Component ⟨16, 16, 16, ["Ye", "Ye_em"], true, true, true, 3⟩ "KTOT" 11 := by
  refine ⟨by norm_num, by norm_num, by norm_num, by decide, by decide +kernel, by decide +kernel, ?_, ?_⟩
  · exact Or.inr (Or.inl ⟨1, rfl, rfl⟩)
  · exact Or.inr (Or.inr ⟨rfl, Or.inr ⟨rfl, rfl⟩⟩)

end Nubhlight.Xdmf
