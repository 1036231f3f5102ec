import Verif.Model.RadMessages
import Verif.Props.MainLoop
import Verif.Props.RadStep

set_option autoImplicit false
set_option linter.unusedSectionVars false

/-! # C152: the radiation part of steps run by messages is that of all ranks at once, and conserves momentum under every schedule -/

namespace Nubhlight.RadMessages

open Bounds RadSync Messages Emission RadStep

variable {K : Type} [Field K] [LinearOrder K] [IsStrictOrderedRing K] {d1 d2 d3 : Dim}

/-! ## Specification -/

/-- Momentum of the gas of a rank. -/
noncomputable def gasOf (d1 d2 d3 : Dim) (d3x : K) (mu : Fin 4) (U : ℤ → ℤ → ℤ → Cons K) : K :=
  d3x * ∑ i ∈ Finset.Ico NG (d1.N + NG), ∑ j ∈ Finset.Ico NG (d2.N + NG), ∑ k ∈ Finset.Ico NG (d3.N + NG), (U i j k).U mu

/-- Momentum of packets. -/
def packetsOf (kphys : K) (mu : Fin 4) (l : List (Parcel K)) : K := (l.map fun p => kphys * (p.id.w * p.id.Kcov mu)).sum

/-- Component `mu` of the momentum of gas and packets on all ranks. -/
noncomputable def momentum (d3x kphys : K) (mu : Fin 4) (A : Ranks d1 d2 d3 → Mem K) : K :=
  ∑ r, (gasOf d1 d2 d3 d3x mu (A r).U + packetsOf kphys mu (A r).pk)

/-- Coordinates of a rank, with some rank for coordinates of none. -/
def rankAt (r0 : Ranks d1 d2 d3) (c1 c2 c3 : ℤ) : Ranks d1 d2 d3 :=
  if h : (0 ≤ c1 ∧ c1 < d1.C) ∧ (0 ≤ c2 ∧ c2 < d2.C) ∧ (0 ≤ c3 ∧ c3 < d3.C) then (⟨c1.toNat, by omega⟩, ⟨c2.toNat, by omega⟩, ⟨c3.toNat, by omega⟩) else r0

/-- The memory of all ranks as in `RadStep`. -/
def stateOf (r0 : Ranks d1 d2 d3) (A : Ranks d1 d2 d3 → Mem K) : State K where
  U c1 c2 c3 := (A (rankAt r0 c1 c2 c3)).U
  G c1 c2 c3 i j k := toSource ((A (rankAt r0 c1 c2 c3)).rad.arr i j k)
  pk c1 c2 c3 := (A (rankAt r0 c1 c2 c3)).pk.map fun p => p.id

/-! ## Ranks -/

theorem rankAt_rank (r0 r : Ranks d1 d2 d3) : rankAt r0 r.1 r.2.1 r.2.2 = r := by
  obtain ⟨a, b, c⟩ := r
  have ha := a.2
  have hb := b.2
  have hc := c.2
  unfold rankAt
  rw [dif_pos ⟨⟨by omega, by omega⟩, ⟨by omega, by omega⟩, by omega, by omega⟩]
  simp

theorem sum_fin (C : ℤ) (f : ℤ → K) : ∑ c ∈ Finset.Ico 0 C, f c = ∑ x : Fin C.toNat, f x := by
  symm
  refine Finset.sum_bij (fun x _ => ((x : ℕ) : ℤ)) ?_ ?_ ?_ ?_
  · intro x _
    have := x.2
    rw [Finset.mem_Ico]; omega
  · intro x _ y _ h
    exact Fin.ext (by exact_mod_cast h)
  · intro c hc
    rw [Finset.mem_Ico] at hc
    exact ⟨⟨c.toNat, by omega⟩, Finset.mem_univ _, by simp; omega⟩
  · intro x _; rfl

theorem sum_ranks (r0 : Ranks d1 d2 d3) (f : Ranks d1 d2 d3 → K) :
    ∑ c1 ∈ Finset.Ico 0 d1.C, ∑ c2 ∈ Finset.Ico 0 d2.C, ∑ c3 ∈ Finset.Ico 0 d3.C, f (rankAt r0 c1 c2 c3) = ∑ r, f r := by
  rw [sum_fin, Fintype.sum_prod_type]
  refine Finset.sum_congr rfl fun a _ => ?_
  rw [sum_fin, Fintype.sum_prod_type]
  refine Finset.sum_congr rfl fun b _ => ?_
  rw [sum_fin]
  refine Finset.sum_congr rfl fun c _ => ?_
  exact congrArg f (rankAt_rank r0 (a, b, c))

theorem whole_stateOf (r0 : Ranks d1 d2 d3) (d3x kphys : K) (mu : Fin 4) (A : Ranks d1 d2 d3 → Mem K) :
    whole d1 d2 d3 d3x kphys mu (stateOf r0 A) = momentum d3x kphys mu A := by
  unfold whole momentum gas packets overZones
  rw [Finset.sum_add_distrib]
  congr 1
  · rw [← sum_ranks r0]
    simp only [Finset.mul_sum, gasOf]
    rfl
  · rw [← sum_ranks r0]
    refine Finset.sum_congr rfl fun c1 _ => Finset.sum_congr rfl fun c2 _ => Finset.sum_congr rfl fun c3 _ => ?_
    unfold RadStep.carried packetsOf stateOf
    simp only [List.map_map, Function.comp_def]

/-! ## Sums of arrays with several components -/

theorem gather_hom {V V' : Type*} [AddCommMonoid V] [AddCommMonoid V'] (f : V →+ V') (d : Dim) (a : ℤ → ℤ → V) (c i : ℤ) :
    f (gather d a c i) = gather d (fun c i => f (a c i)) c i := by
  unfold gather received
  rw [map_add]
  congr 1
  split
  · rfl
  · split
    · rfl
    · exact map_zero f

theorem syncAdd_hom {V V' : Type*} [AddCommMonoid V] [AddCommMonoid V'] (f : V →+ V') (W : World V) (c1 c2 c3 i j k : ℤ) :
    f (syncAdd d1 d2 d3 W c1 c2 c3 i j k) = syncAdd d1 d2 d3 (fun c1 c2 c3 i j k => f (W c1 c2 c3 i j k)) c1 c2 c3 i j k := by
  unfold syncAdd
  simp only [apply_ite f, gather_hom f]

theorem syncAdd_all (W : World (Src K)) (c1 c2 c3 i j k : ℤ) :
    toSource (syncAdd d1 d2 d3 W c1 c2 c3 i j k) = syncAll d1 d2 d3 (fun c1 c2 c3 i j k => toSource (W c1 c2 c3 i j k)) c1 c2 c3 i j k := by
  unfold syncAll toSource
  congr 1
  · funext mu
    exact syncAdd_hom ((Pi.evalAddMonoidHom (fun _ : Fin 4 => K) mu).comp (AddMonoidHom.fst (Fin 4 → K) (K × K))) W c1 c2 c3 i j k
  · exact syncAdd_hom ((AddMonoidHom.fst K K).comp (AddMonoidHom.snd (Fin 4 → K) (K × K))) W c1 c2 c3 i j k
  · exact syncAdd_hom ((AddMonoidHom.snd K K).comp (AddMonoidHom.snd (Fin 4 → K) (K × K))) W c1 c2 c3 i j k

/-! ## Parts of the program -/

theorem fold_embed {R R' σ τ M M' : Type*} (e : R ≃ R') (get : τ → σ) (set : τ → σ → τ) (inj : M → M') (proj : M' → Option M) (hp : ∀ m, proj (inj m) = some m)
    (h1 : ∀ x z, get (set x z) = z) (h2 : ∀ x a b, set (set x a) b = set x b) (h3 : ∀ x, set x (get x) = x) (L : List (R' → Instr R' σ M)) (V : R → τ) (r : R) :
    (L.map fun I r => MainLoop.embed e get set inj proj r (I (e r))).foldl (fun V I => exec I V) V r =
      set (V r) (L.foldl (fun V I => exec I V) (fun o => get (V (e.symm o))) (e r)) := by
  induction L generalizing V with
  | nil => simp [h3]
  | cons I L ih =>
    simp only [List.map_cons, List.foldl_cons]
    have ho : (fun o => get (exec (fun r => MainLoop.embed e get set inj proj r (I (e r))) V (e.symm o))) = exec I fun o => get (V (e.symm o)) := by
      funext o
      rw [MainLoop.exec_embed e get set inj proj hp I V, h1, Equiv.apply_symm_apply]
    rw [ih, MainLoop.exec_embed e get set inj proj hp I V r, h2, ho]

theorem exchangePart_fold (g : PhotonSync.Grid K) (e : Ranks d1 d2 d3 ≃ PhotonSync.Rank g) (A : Ranks d1 d2 d3 → Mem K) (r : Ranks d1 d2 d3) :
    (exchangePart g e).foldl (fun V I => exec I V) A r =
      { A r with post := (PhotonMessages.exchange g).foldl (fun V I => exec I V) (fun o => (A (e.symm o)).post) (e r) } := by
  unfold exchangePart
  rw [fold_embed e Mem.post (fun m x => { m with post := x }) Mess.packets Mess.toPackets (fun _ => rfl) (fun _ _ => rfl) (fun _ _ _ => rfl) (fun _ => rfl)]

theorem sumPart_fold (w : ℤ → ℤ → ℤ → Bool) (A : Ranks d1 d2 d3 → Mem K) (r : Ranks d1 d2 d3) :
    (sumPart d1 d2 d3 w).foldl (fun V I => exec I V) A r =
      { A r with rad := (SumMessages.sum d1 d2 d3 w).foldl (fun V I => exec I V) (fun o => (A o).rad) r } := by
  unfold sumPart
  have h := fold_embed (Equiv.refl (Ranks d1 d2 d3)) Mem.rad (fun (m : Mem K) x => { m with rad := x }) Mess.array Mess.toArray (fun _ => rfl) (fun _ _ => rfl)
    (fun _ _ _ => rfl) (fun _ => rfl) (SumMessages.sum d1 d2 d3 w) A r
  simpa only [Equiv.refl_apply, Equiv.refl_symm] using h

theorem step_agree (D : StepIn K d1 d2 d3) (g : PhotonSync.Grid K) (e : Ranks d1 d2 d3 ≃ PhotonSync.Rank g) (w : ℤ → ℤ → ℤ → Bool) :
    ∀ I ∈ step D g e w, Agree I := by
  intro I hI
  simp only [step, List.mem_append, List.mem_cons, List.not_mem_nil, or_false] at hI
  rcases hI with (((((rfl | rfl) | h) | rfl) | h) | (rfl | rfl))
  · exact agree_comp _
  · exact agree_comp _
  · simp only [exchangePart, List.mem_map] at h
    obtain ⟨J, hJ, rfl⟩ := h
    exact MainLoop.agree_embed e _ _ _ _ (PhotonMessages.exchange_agree g J hJ)
  · exact agree_comp _
  · simp only [sumPart, List.mem_map] at h
    obtain ⟨J, hJ, rfl⟩ := h
    exact MainLoop.agree_embed (Equiv.refl _) _ _ _ _ (SumMessages.sum_agree w J hJ)
  · refine ⟨?_, ?_, ?_⟩
    · intro a b src tag pay store h; simp [correct] at h
    · intro a b dst tag pay store h; simp [correct] at h
    · intro a b kind f h
      simp only [correct, Instr.coll.injEq] at h
      obtain ⟨rfl, -⟩ := h
      exact ⟨_, rfl⟩
  · exact agree_comp _

theorem steps_agree (g : PhotonSync.Grid K) (e : Ranks d1 d2 d3 ≃ PhotonSync.Rank g) (w : ℤ → ℤ → ℤ → Bool) (Ds : List (StepIn K d1 d2 d3)) :
    ∀ I ∈ steps g e w Ds, Agree I := by
  intro I hI
  simp only [steps, List.mem_flatMap] at hI
  obtain ⟨D, -, h⟩ := hI
  exact step_agree D g e w I h

/-! ## One step -/

/-- Ready for a step: nothing in the buffers where the `memset` does not clear, exchange without fault. -/
structure Fit (w : ℤ → ℤ → ℤ → Bool) (A : Ranks d1 d2 d3 → Mem K) : Prop where
  buf : ∀ r i j k, ext d1 i → ext d2 j → ext d3 k → w i j k = false → (A r).rad.buf i j k = 0
  bad : ∀ r, (A r).post.bad = false

/-- What a step does when ranks run in step. -/
structure Outcome (D : StepIn K d1 d2 d3) (g : PhotonSync.Grid K) (e : Ranks d1 d2 d3 ≃ PhotonSync.Rank g) (r0 : Ranks d1 d2 d3) (A B : Ranks d1 d2 d3 → Mem K) :
    Prop where
  U : ∀ r i j k, (B r).U i j k = if act d1 i ∧ act d2 j ∧ act d3 k then
    applyForce D.g.c.dt (syncAll d1 d2 d3 (fun c1 c2 c3 i j k => toSource ((radiate D (rankAt r0 c1 c2 c3) (A (rankAt r0 c1 c2 c3))).rad.arr i j k)) r.1 r.2.1 r.2.2 i j k)
      (D.hydro (fun o => (A o).U) r i j k) else D.hydro (fun o => (A o).U) r i j k
  pk : ∀ r, (↑(B r).pk : Multiset (Parcel K)) = PhotonSync.pass g (fun q => ↑(radiate D (e.symm q) (A (e.symm q))).pk) (e r)
  arr : ∀ r i j k, (B r).rad.arr i j k = 0
  buf : ∀ r i j k, ext d1 i → ext d2 j → ext d3 k → (B r).rad.buf i j k = 0
  bad : ∀ r, (B r).post.bad = false
  undef : ∀ r, (B r).undef = (radiate D r (A r)).undef

theorem radiate_other (D : StepIn K d1 d2 d3) (r : Ranks d1 d2 d3) (m : Mem K) :
    (radiate D r m).U = m.U ∧ (radiate D r m).rad.buf = m.rad.buf ∧ (radiate D r m).post = m.post := by
  unfold radiate
  cases rankRad D.g (D.d r) (fun z => toSource (m.rad.arr z.1 z.2.1 z.2.2)) (m.pk.map fun p => p.id) <;> exact ⟨rfl, rfl, rfl⟩

theorem step_outcome (h1 : 1 ≤ d1.N) (h2 : 1 ≤ d2.N) (h3 : 1 ≤ d3.N) (D : StepIn K d1 d2 d3) (g : PhotonSync.Grid K) (e : Ranks d1 d2 d3 ≃ PhotonSync.Rank g)
    (w : ℤ → ℤ → ℤ → Bool) (r0 : Ranks d1 d2 d3) (A : Ranks d1 d2 d3 → Mem K) (hA : Fit w A) :
    Outcome D g e r0 A ((step D g e w).foldl (fun V I => exec I V) A) := by
  obtain ⟨A2, hA2⟩ : ∃ A2 : Ranks d1 d2 d3 → Mem K, A2 = fun r => sort g (e r) (radiate D r (A r)) := ⟨_, rfl⟩
  obtain ⟨A3, hA3⟩ : ∃ A3, A3 = (exchangePart g e).foldl (fun V I => exec I V) A2 := ⟨_, rfl⟩
  obtain ⟨A4, hA4⟩ : ∃ A4 : Ranks d1 d2 d3 → Mem K, A4 = fun r => join (A3 r) := ⟨_, rfl⟩
  obtain ⟨A5, hA5⟩ : ∃ A5, A5 = (sumPart d1 d2 d3 w).foldl (fun V I => exec I V) A4 := ⟨_, rfl⟩
  have hB : (step D g e w).foldl (fun V I => exec I V) A = fun r => exert D { A5 r with U := D.hydro (fun o => (A5 o).U) r } := by
    rw [hA5, hA4, hA3, hA2]
    simp only [step, List.foldl_append, List.foldl_cons, List.foldl_nil]
    rfl
  have hU2 : ∀ r, (A2 r).U = (A r).U := fun r => by rw [hA2]; exact (radiate_other D r (A r)).1
  have hp2 : ∀ r, (A2 r).post = { (A r).post with given := ((radiate D r (A r)).pk.filter fun p => PhotonSync.leaves g (e r) p.x).map (PhotonSync.wrap g false) } := by
    intro r
    rw [hA2]
    show ({ (radiate D r (A r)).post with given := _ } : PhotonMessages.Post K (Pkt K)) = _
    rw [(radiate_other D r (A r)).2.2]
  have h3r : ∀ r, A3 r = { A2 r with post := (PhotonMessages.exchange g).foldl (fun V I => exec I V) (fun o => (A2 (e.symm o)).post) (e r) } := fun r => by
    rw [hA3, exchangePart_fold]
  have hU3 : ∀ r, (A3 r).U = (A r).U := fun r => by rw [h3r, ← hU2 r]
  have hx := fun r => PhotonMessages.exchange_fold g (fun o => (A2 (e.symm o)).post) (fun o => by rw [hp2]; exact hA.bad _) (e r)
  simp only at hx
  have h5r : ∀ r, A5 r = { A4 r with rad := (SumMessages.sum d1 d2 d3 w).foldl (fun V I => exec I V) (fun o => (A4 o).rad) r } := fun r => by rw [hA5, sumPart_fold]
  have hrad4 : ∀ r, (A4 r).rad = (radiate D r (A r)).rad := fun r => by rw [hA4]; show (A3 r).rad = _; rw [h3r, hA2]; rfl
  have hU5 : ∀ r, (A5 r).U = (A r).U := fun r => by rw [h5r, hA4]; exact hU3 r
  obtain ⟨s1, s2⟩ := SumMessages.sum_fold h1 h2 h3 w (fun o => (A4 o).rad)
    (fun c1 c2 c3 i j k => (radiate D (rankAt r0 c1 c2 c3) (A (rankAt r0 c1 c2 c3))).rad.arr i j k)
    (fun r i j k => by simp only [rankAt_rank, hrad4])
    (fun r i j k hi hj hk hw => by simp only [hrad4]; rw [(radiate_other D r (A r)).2.1]; exact hA.buf r i j k hi hj hk hw)
  have hUfun : (fun o => (A5 o).U) = fun o => (A o).U := funext hU5
  refine ⟨fun r i j k => ?_, fun r => ?_, fun r i j k => ?_, fun r i j k hi hj hk => ?_, fun r => ?_, fun r => ?_⟩
  · rw [hB]
    simp only [exert, hUfun]
    rw [← syncAdd_all, ← s1 r i j k, h5r]
  · rw [hB]
    show (↑(A5 r).pk : Multiset (Parcel K)) = _
    have : (A5 r).pk = (A3 r).post.kept.reverse ++ (A3 r).pk := by rw [h5r, hA4]; rfl
    rw [this, ← Multiset.coe_add, Multiset.coe_reverse]
    have k1 : (↑(A3 r).post.kept : Multiset (Parcel K)) = PhotonSync.sync g (fun q => ↑((A2 (e.symm q)).post.given)) (e r) := by rw [h3r]; exact (hx r).2.1
    have k2 : (A3 r).pk = ((radiate D r (A r)).pk.filter fun p => !PhotonSync.leaves g (e r) p.x).map (PhotonSync.wrap g false) := by rw [h3r, hA2]; rfl
    rw [k1, k2, add_comm]
    unfold PhotonSync.pass
    congr 1
    · simp only [Equiv.symm_apply_apply]
      rw [← Multiset.map_coe, Multiset.filter_coe]
      congr 2
      refine List.filter_congr fun p _ => ?_
      cases PhotonSync.leaves g (e r) p.x <;> rfl
    · congr 1
      funext q
      rw [hp2]
      simp only [Equiv.apply_symm_apply]
      rw [← Multiset.map_coe, Multiset.filter_coe]
      congr 2
      refine List.filter_congr fun p _ => ?_
      cases PhotonSync.leaves g q p.x <;> rfl
  · rw [hB]; rfl
  · rw [hB]
    show (A5 r).rad.buf i j k = 0
    rw [h5r]
    exact s2 r i j k hi hj hk
  · rw [hB]
    show (A5 r).post.bad = false
    rw [h5r, hA4]
    show (A3 r).post.bad = false
    rw [h3r]
    exact (hx r).1
  · rw [hB]
    show (A5 r).undef = _
    rw [h5r, hA4]
    show (A3 r).undef = _
    rw [h3r, hA2]; rfl

theorem radiate_some (D : StepIn K d1 d2 d3) (r : Ranks d1 d2 d3) (m : Mem K) (h : (radiate D r m).undef = false) :
    m.undef = false ∧ rankRad D.g (D.d r) (fun z => toSource (m.rad.arr z.1 z.2.1 z.2.2)) (m.pk.map fun p => p.id) =
      some (fun z => toSource ((radiate D r m).rad.arr z.1 z.2.1 z.2.2), (radiate D r m).pk.map fun p => p.id) ∧
      ∀ p ∈ (radiate D r m).pk, ∃ n, p.x = D.pos r n := by
  unfold radiate at h ⊢
  cases hr : rankRad D.g (D.d r) (fun z => toSource (m.rad.arr z.1 z.2.1 z.2.2)) (m.pk.map fun p => p.id) with
  | none => rw [hr] at h; cases h
  | some x =>
    rw [hr] at h
    refine ⟨h, ?_, ?_⟩
    · simp only [Option.some.injEq]
      refine Prod.ext rfl ?_
      refine (List.ext_getElem ?_ ?_)
      · simp
      · intro n a b; simp
    · intro p hp
      simp only [List.mem_mapIdx] at hp
      obtain ⟨n, hn, rfl⟩ := hp
      exact ⟨n, rfl⟩

/-- Anything summed over packets that does not look at positions is unchanged by the exchange. -/
theorem pass_sum {T : Type} (g : PhotonSync.Grid K) (hg : PhotonSync.Consistent g) (P : PhotonSync.Rank g → Multiset (PhotonSync.Ph K T))
    (hP : ∀ r, ∀ p ∈ P r, PhotonSync.Near g p.x) (f : T → K) :
    PhotonSync.total g (PhotonSync.pass g P) (fun i => f i.2.id) = PhotonSync.total g P fun i => f i.2.id := by
  rw [PhotonSync.total_pass]
  refine PhotonSync.total_congr g P _ _ fun r p hp => ?_
  obtain ⟨r', p', e', -, hid⟩ := PhotonSync.round_near g hg r p (hP r p hp)
  simp only [e', PhotonSync.lift0, hid]

/-- The gas of all ranks after the rest of the step, and otherwise what there was before. -/
def corrected (D : StepIn K d1 d2 d3) (r0 : Ranks d1 d2 d3) (A : Ranks d1 d2 d3 → Mem K) : State K :=
  { stateOf r0 A with U := fun c1 c2 c3 => D.hydro (fun o => (A o).U) (rankAt r0 c1 c2 c3) }

/-- A step that is defined is `RadStep.radStep` of all ranks at once, then the exchange of packets of all ranks at once. -/
theorem outcome_radStep (D : StepIn K d1 d2 d3) (g : PhotonSync.Grid K) (e : Ranks d1 d2 d3 ≃ PhotonSync.Rank g) (r0 : Ranks d1 d2 d3)
    (A B : Ranks d1 d2 d3 → Mem K) (hO : Outcome D g e r0 A B) (hu : ∀ r, (B r).undef = false) :
    ∃ (m : State K) (L : Ranks d1 d2 d3 → List (Parcel K)),
      radStep d1 d2 d3 D.g (fun c1 c2 c3 => D.d (rankAt r0 c1 c2 c3)) (corrected D r0 A) m ∧
      (∀ r : Ranks d1 d2 d3, (B r).U = m.U r.1 r.2.1 r.2.2) ∧
      (∀ r : Ranks d1 d2 d3, (L r).map (fun p => p.id) = m.pk r.1 r.2.1 r.2.2 ∧ ∀ p ∈ L r, ∃ n, p.x = D.pos r n) ∧
      ∀ r, (↑(B r).pk : Multiset (Parcel K)) = PhotonSync.pass g (fun q => ↑(L (e.symm q))) (e r) := by
  have hr : ∀ r, _ := fun r => radiate_some D r (A r) (by rw [← hO.undef]; exact hu r)
  refine ⟨⟨applyAll d1 d2 d3 D.g.c.dt (syncAll d1 d2 d3 fun c1 c2 c3 i j k =>
      toSource ((radiate D (rankAt r0 c1 c2 c3) (A (rankAt r0 c1 c2 c3))).rad.arr i j k)) (corrected D r0 A).U, fun _ _ _ _ _ _ => ⟨fun _ => 0, 0, 0⟩,
      fun c1 c2 c3 => (radiate D (rankAt r0 c1 c2 c3) (A (rankAt r0 c1 c2 c3))).pk.map fun p => p.id⟩, fun r => (radiate D r (A r)).pk, ⟨_, ?_, rfl, rfl⟩, ?_, ?_, hO.pk⟩
  · intro c1 c2 c3 _ _ _
    exact (hr (rankAt r0 c1 c2 c3)).2.1
  · intro r
    funext i j k
    rw [hO.U]
    simp only [applyAll, corrected, rankAt_rank]
  · intro r
    simp only [rankAt_rank]
    exact ⟨trivial, (hr r).2.2⟩

theorem rankAt_val (r0 : Ranks d1 d2 d3) (c1 c2 c3 : ℤ) (k1 : 0 ≤ c1 ∧ c1 < d1.C) (k2 : 0 ≤ c2 ∧ c2 < d2.C) (k3 : 0 ≤ c3 ∧ c3 < d3.C) :
    (((rankAt r0 c1 c2 c3).1 : ℕ) : ℤ) = c1 ∧ (((rankAt r0 c1 c2 c3).2.1 : ℕ) : ℤ) = c2 ∧ (((rankAt r0 c1 c2 c3).2.2 : ℕ) : ℤ) = c3 := by
  unfold rankAt
  rw [dif_pos ⟨k1, k2, k3⟩]
  exact ⟨by simp; omega, by simp; omega, by simp; omega⟩

theorem whole_congr (d3x kphys : K) (mu : Fin 4) (s s' : State K)
    (h : ∀ c1 c2 c3, (0 ≤ c1 ∧ c1 < d1.C) → (0 ≤ c2 ∧ c2 < d2.C) → (0 ≤ c3 ∧ c3 < d3.C) → s.U c1 c2 c3 = s'.U c1 c2 c3 ∧ s.pk c1 c2 c3 = s'.pk c1 c2 c3) :
    whole d1 d2 d3 d3x kphys mu s = whole d1 d2 d3 d3x kphys mu s' := by
  have hg : gas d1 d2 d3 d3x mu s = gas d1 d2 d3 d3x mu s' := by
    unfold gas overZones
    refine congrArg _ (Finset.sum_congr rfl fun c1 k1 => Finset.sum_congr rfl fun c2 k2 => Finset.sum_congr rfl fun c3 k3 => ?_)
    rw [Finset.mem_Ico] at k1 k2 k3
    simp only [(h c1 c2 c3 k1 k2 k3).1]
  have hp : packets d1 d2 d3 kphys mu s = packets d1 d2 d3 kphys mu s' := by
    unfold packets
    refine Finset.sum_congr rfl fun c1 k1 => Finset.sum_congr rfl fun c2 k2 => Finset.sum_congr rfl fun c3 k3 => ?_
    rw [Finset.mem_Ico] at k1 k2 k3
    rw [(h c1 c2 c3 k1 k2 k3).2]
  unfold whole
  rw [hg, hp]

/-- The same for the momentum. -/
theorem outcome_momentum (h1 : d1.WF) (h2 : d2.WF) (h3 : d3.WF) (D : StepIn K d1 d2 d3) (g : PhotonSync.Grid K) (hg : PhotonSync.Consistent g)
    (e : Ranks d1 d2 d3 ≃ PhotonSync.Rank g) (r0 : Ranks d1 d2 d3) (A B : Ranks d1 d2 d3 → Mem K) (hO : Outcome D g e r0 A B) (hu : ∀ r, (B r).undef = false)
    (mu : Fin 4) (hdt : D.g.c.dt ≠ 0) (hx : D.g.c.d3x ≠ 0) (hl : ∀ r : Ranks d1 d2 d3, Lossless d1 d2 d3 mu r.1 r.2.1 r.2.2 (D.d r))
    (hp : ∀ r n, PhotonSync.Near g (D.pos r n)) (h0 : ∀ r i j k, ((A r).rad.arr i j k).1 mu = 0) :
    momentum D.g.c.d3x D.g.c.kphys mu B = momentum D.g.c.d3x D.g.c.kphys mu A +
      ∑ r, (gasOf d1 d2 d3 D.g.c.d3x mu (D.hydro (fun o => (A o).U) r) - gasOf d1 d2 d3 D.g.c.d3x mu (A r).U) := by
  obtain ⟨m, L, hm, hU, hL, hB⟩ := outcome_radStep D g e r0 A B hO hu
  have hc := (C134_step_partial h1 h2 h3 D.g hdt hx mu _ _ m hm (fun c1 c2 c3 k1 k2 k3 => by
    have := hl (rankAt r0 c1 c2 c3)
    have e1 := rankAt_val r0 c1 c2 c3 k1 k2 k3
    rwa [e1.1, e1.2.1, e1.2.2] at this) (fun c1 c2 c3 i j k => h0 _ i j k)).1
  have w1 : whole d1 d2 d3 D.g.c.d3x D.g.c.kphys mu (corrected D r0 A) =
      momentum D.g.c.d3x D.g.c.kphys mu fun r => { A r with U := D.hydro (fun o => (A o).U) r } :=
    whole_stateOf r0 _ _ mu fun r => { A r with U := D.hydro (fun o => (A o).U) r }
  have w2 : whole d1 d2 d3 D.g.c.d3x D.g.c.kphys mu m = momentum D.g.c.d3x D.g.c.kphys mu fun r => { B r with pk := L r } := by
    rw [← whole_stateOf r0]
    refine whole_congr _ _ mu m _ fun c1 c2 c3 k1 k2 k3 => ?_
    have e1 := rankAt_val r0 c1 c2 c3 k1 k2 k3
    have a := hU (rankAt r0 c1 c2 c3)
    have b := (hL (rankAt r0 c1 c2 c3)).1
    rw [e1.1, e1.2.1, e1.2.2] at a b
    exact ⟨a.symm, b.symm⟩
  have hs : ∑ r, packetsOf D.g.c.kphys mu (B r).pk = ∑ r, packetsOf D.g.c.kphys mu (L r) := by
    have t := pass_sum g hg (fun q => (↑(L (e.symm q)) : Multiset (Parcel K))) (fun q p hpm => by
      obtain ⟨n, hn⟩ := (hL (e.symm q)).2 p (by simpa using hpm)
      rw [hn]; exact hp _ _) fun p => D.g.c.kphys * (p.w * p.Kcov mu)
    unfold PhotonSync.total at t
    rw [← Equiv.sum_comp e, ← Equiv.sum_comp e (fun q => ((↑(L (e.symm q)) : Multiset (Parcel K)).map _).sum)] at t
    simp only [← hB, Equiv.symm_apply_apply, Multiset.map_coe, Multiset.sum_coe] at t
    exact t
  rw [w1, w2] at hc
  unfold momentum at hc ⊢
  simp only [Finset.sum_add_distrib, Finset.sum_sub_distrib] at hc ⊢
  rw [hs]
  linear_combination hc

/-! ## Any number of steps under every schedule -/

theorem fit_after (w : ℤ → ℤ → ℤ → Bool) (D : StepIn K d1 d2 d3) (g : PhotonSync.Grid K) (e : Ranks d1 d2 d3 ≃ PhotonSync.Rank g) (r0 : Ranks d1 d2 d3)
    (A B : Ranks d1 d2 d3 → Mem K) (hO : Outcome D g e r0 A B) : Fit w B := ⟨fun r i j k hi hj hk _ => hO.buf r i j k hi hj hk, hO.bad⟩

theorem undef_before (h1 : 1 ≤ d1.N) (h2 : 1 ≤ d2.N) (h3 : 1 ≤ d3.N) (g : PhotonSync.Grid K) (e : Ranks d1 d2 d3 ≃ PhotonSync.Rank g) (w : ℤ → ℤ → ℤ → Bool)
    (r0 : Ranks d1 d2 d3) (Ds : List (StepIn K d1 d2 d3)) (A : Ranks d1 d2 d3 → Mem K) (hA : Fit w A)
    (hu : ∀ r, ((steps g e w Ds).foldl (fun V I => exec I V) A r).undef = false) (r : Ranks d1 d2 d3) : (A r).undef = false := by
  induction Ds generalizing A with
  | nil => exact hu r
  | cons D Ds ih =>
    have e0 : steps g e w (D :: Ds) = step D g e w ++ steps g e w Ds := rfl
    rw [e0, List.foldl_append] at hu
    have hO := step_outcome h1 h2 h3 D g e w r0 A hA
    have := ih _ (fit_after w D g e r0 A _ hO) hu
    rw [hO.undef] at this
    exact (radiate_some D r (A r) this).1

/-- What is assumed of the inputs of a step: step, zone volume and units; `Lossless` on every rank; packets at the end of the step in the domain or less than an
extent beyond periodic edges; the rest of the step conserves the component of the momentum. -/
structure Closed (g : PhotonSync.Grid K) (d3x kphys : K) (mu : Fin 4) (D : StepIn K d1 d2 d3) : Prop where
  dt : D.g.c.dt ≠ 0
  volume : D.g.c.d3x = d3x
  unit : D.g.c.kphys = kphys
  lossless : ∀ r : Ranks d1 d2 d3, Lossless d1 d2 d3 mu r.1 r.2.1 r.2.2 (D.d r)
  near : ∀ r n, PhotonSync.Near g (D.pos r n)
  hydro : ∀ V, ∑ r, gasOf d1 d2 d3 d3x mu (D.hydro V r) = ∑ r, gasOf d1 d2 d3 d3x mu (V r)

theorem steps_momentum (h1 : d1.WF) (h2 : d2.WF) (h3 : d3.WF) (g : PhotonSync.Grid K) (hg : PhotonSync.Consistent g) (e : Ranks d1 d2 d3 ≃ PhotonSync.Rank g)
    (w : ℤ → ℤ → ℤ → Bool) (r0 : Ranks d1 d2 d3) (d3x kphys : K) (hx : d3x ≠ 0) (mu : Fin 4) (Ds : List (StepIn K d1 d2 d3)) (hD : ∀ D ∈ Ds, Closed g d3x kphys mu D)
    (A : Ranks d1 d2 d3 → Mem K) (hA : Fit w A) (h0 : ∀ r i j k, ((A r).rad.arr i j k).1 mu = 0)
    (hu : ∀ r, ((steps g e w Ds).foldl (fun V I => exec I V) A r).undef = false) :
    momentum d3x kphys mu ((steps g e w Ds).foldl (fun V I => exec I V) A) = momentum d3x kphys mu A ∧
      ∀ r, ((steps g e w Ds).foldl (fun V I => exec I V) A r).post.bad = false := by
  induction Ds generalizing A with
  | nil => exact ⟨rfl, hA.bad⟩
  | cons D Ds ih =>
    have e0 : steps g e w (D :: Ds) = step D g e w ++ steps g e w Ds := rfl
    rw [e0, List.foldl_append] at hu ⊢
    have hO := step_outcome h1.1 h2.1 h3.1 D g e w r0 A hA
    have hF := fit_after w D g e r0 A _ hO
    have hu1 := undef_before h1.1 h2.1 h3.1 g e w r0 Ds _ hF hu
    obtain ⟨a, b⟩ := ih (fun D' h => hD D' (List.mem_cons_of_mem _ h)) _ hF (fun r i j k => by rw [hO.arr]; rfl) hu
    refine ⟨a.trans ?_, b⟩
    obtain ⟨q1, q2, q3, q4, q5, q6⟩ := hD D (List.mem_cons_self ..)
    have t := outcome_momentum h1 h2 h3 D g hg e r0 A _ hO hu1 mu q1 (by rw [q2]; exact hx) q4 q5 h0
    rw [q2, q3] at t
    rw [t, Finset.sum_sub_distrib, q6, sub_self, add_zero]

/-- **C152 (one step).** Whatever the interleaving of the ranks and whatever the library buffers: when all ranks are through the radiation part of a step, no
message is left, no message of the exchange was taken for another, and if nothing undefined happened, gas and packets are those of the step on all ranks at once
(`RadStep.radStep`, C134) followed by the exchange on all ranks at once (`PhotonSync.pass`, C39); no force is left. -/
theorem C152_step (h1 : d1.WF) (h2 : d2.WF) (h3 : d3.WF) (D : StepIn K d1 d2 d3) (g : PhotonSync.Grid K) (e : Ranks d1 d2 d3 ≃ PhotonSync.Rank g)
    (w : ℤ → ℤ → ℤ → Bool) (r0 : Ranks d1 d2 d3) (A : Ranks d1 d2 d3 → Mem K) (hA : Fit w A) (s : St (Ranks d1 d2 d3) (Mem K) (Mess K))
    (h : Reach (common (step D g e w)) A s) (hd : Done (common (step D g e w)) s) :
    (∀ a b t, s.chan a b t = []) ∧ (∀ r, (s.loc r).post.bad = false) ∧ (∀ r i j k, (s.loc r).rad.arr i j k = 0) ∧ ((∀ r, (s.loc r).undef = false) →
      ∃ (m : State K) (L : Ranks d1 d2 d3 → List (Parcel K)),
        radStep d1 d2 d3 D.g (fun c1 c2 c3 => D.d (rankAt r0 c1 c2 c3)) (corrected D r0 A) m ∧
        (∀ r : Ranks d1 d2 d3, (s.loc r).U = m.U r.1 r.2.1 r.2.2) ∧
        (∀ r : Ranks d1 d2 d3, (L r).map (fun p => p.id) = m.pk r.1 r.2.1 r.2.2 ∧ ∀ p ∈ L r, ∃ n, p.x = D.pos r n) ∧
        ∀ r, (↑(s.loc r).pk : Multiset (Parcel K)) = PhotonSync.pass g (fun q => ↑(L (e.symm q))) (e r)) := by
  obtain ⟨a1, a2⟩ := C130_results _ _ (common_matched _ (step_agree D g e w)) A s h hd
  have es : s.loc = (step D g e w).foldl (fun V I => exec I V) A := by rw [a1]; exact lock_all _ A
  have hO := step_outcome h1.1 h2.1 h3.1 D g e w r0 A hA
  rw [← es] at hO
  exact ⟨a2, hO.bad, hO.arr, outcome_radStep D g e r0 A s.loc hO⟩

/-- **C152 (momentum).** Any number of steps on any number of ranks, in any order and with any buffering: if in every step nothing is lost (`Closed`) and there is no
force at the start, then, when all ranks are through, gas and packets of all ranks have together the momentum they had. -/
theorem C152_conserved (h1 : d1.WF) (h2 : d2.WF) (h3 : d3.WF) (g : PhotonSync.Grid K) (hg : PhotonSync.Consistent g) (e : Ranks d1 d2 d3 ≃ PhotonSync.Rank g)
    (w : ℤ → ℤ → ℤ → Bool) (r0 : Ranks d1 d2 d3) (d3x kphys : K) (hx : d3x ≠ 0) (mu : Fin 4) (Ds : List (StepIn K d1 d2 d3)) (hD : ∀ D ∈ Ds, Closed g d3x kphys mu D)
    (A : Ranks d1 d2 d3 → Mem K) (hA : Fit w A) (h0 : ∀ r i j k, ((A r).rad.arr i j k).1 mu = 0) (s : St (Ranks d1 d2 d3) (Mem K) (Mess K))
    (h : Reach (common (steps g e w Ds)) A s) (hd : Done (common (steps g e w Ds)) s) (hu : ∀ r, (s.loc r).undef = false) :
    (∀ a b t, s.chan a b t = []) ∧ (∀ r, (s.loc r).post.bad = false) ∧ momentum d3x kphys mu s.loc = momentum d3x kphys mu A := by
  obtain ⟨a1, a2⟩ := C130_results _ _ (common_matched _ (steps_agree g e w Ds)) A s h hd
  have es : s.loc = (steps g e w Ds).foldl (fun V I => exec I V) A := by rw [a1]; exact lock_all _ A
  rw [es] at hu ⊢
  obtain ⟨b1, b2⟩ := steps_momentum h1 h2 h3 g hg e w r0 d3x kphys hx mu Ds hD A hA h0 hu
  exact ⟨a2, b2, b1⟩

theorem step_length (D : StepIn K d1 d2 d3) (g : PhotonSync.Grid K) (e : Ranks d1 d2 d3 ≃ PhotonSync.Rank g) (w : ℤ → ℤ → ℤ → Bool) :
    (step D g e w).length = 32 := rfl

theorem steps_length (g : PhotonSync.Grid K) (e : Ranks d1 d2 d3 ≃ PhotonSync.Rank g) (w : ℤ → ℤ → ℤ → Bool) (Ds : List (StepIn K d1 d2 d3)) :
    (steps g e w Ds).length = 32 * Ds.length := by
  induction Ds with
  | nil => rfl
  | cons D Ds ih =>
    have e0 : steps g e w (D :: Ds) = step D g e w ++ steps g e w Ds := rfl
    rw [e0, List.length_append, ih, step_length, List.length_cons]
    ring

/-- **C152 (completion).** As long as a rank is not through, something can happen without the library buffering anything, and no schedule is longer than a bound
set by the numbers of ranks and steps. -/
theorem C152_completes [Nonempty (Ranks d1 d2 d3)] (g : PhotonSync.Grid K) (e : Ranks d1 d2 d3 ≃ PhotonSync.Rank g) (w : ℤ → ℤ → ℤ → Bool) (Ds : List (StepIn K d1 d2 d3))
    (A : Ranks d1 d2 d3 → Mem K) (n : ℕ) (s : St (Ranks d1 d2 d3) (Mem K) (Mess K)) (h : Sched (common (steps g e w Ds)) A n s) :
    (Done (common (steps g e w Ds)) s ∨ ∃ s', Step (common (steps g e w Ds)) false s s') ∧ n ≤ (128 * Ds.length + 2) * Fintype.card (Ranks d1 d2 d3) := by
  have hM := common_matched _ (steps_agree g e w Ds)
  constructor
  · by_cases hd : Done (common (steps g e w Ds)) s
    · exact Or.inl hd
    · exact Or.inr (C130_no_deadlock _ _ hM A s h.reach hd)
  · have := C130_completes _ _ hM A n s h
    rw [steps_length] at this
    calc n ≤ _ := this
      _ = _ := by ring

/-! ## A case -/

/-- Two ranks of three zones. -/
def pair : Dim := ⟨3, 2, .outflow, .outflow⟩

/-- The first rank. -/
def rank0 : Ranks pair one one := (⟨0, by decide⟩, ⟨0, by decide⟩, ⟨0, by decide⟩)

/-- The second. -/
def rank1 : Ranks pair one one := (⟨1, by decide⟩, ⟨0, by decide⟩, ⟨0, by decide⟩)

/-- Ranks by coordinates. -/
def coords : Ranks pair one one ≃ PhotonSync.Rank MainLoop.two where
  toFun r := fun d => match d with
    | 0 => r.1
    | 1 => r.2.1
    | 2 => r.2.2
  invFun x := (x 0, x 1, x 2)
  left_inv := fun _ => rfl
  right_inv x := by funext d; fin_cases d <;> rfl

/-- Both ranks emit; the first has a packet absorbed in the second's first zone, the second in its own; all packets end in the second's box. -/
def crossing : StepIn ℚ pair one one where
  g := RadStep.set
  d r := inputs true (if (r.1 : ℕ) = 0 then 6 else 3, 3, 3) true
  pos _ _ := ![3 / 2, 1 / 2, 1 / 2]
  hydro V := V

/-- A packet of weight 8 on each rank. -/
def loaded (_ : Ranks pair one one) : Mem ℚ where
  U _ _ _ := ⟨fun _ => 10, 0, 0⟩
  rad := ⟨fun _ _ _ => 0, fun _ _ _ => 0⟩
  pk := [⟨⟨8, fun _ => 1⟩, ![1 / 2, 1 / 2, 1 / 2]⟩]
  post := ⟨[], fun _ _ => [], fun _ _ => 0, fun _ _ => 0, [], [], 0, 0, 0, 2, false⟩
  undef := false

theorem crossing_closed (mu : Fin 4) : Closed MainLoop.two 1 1 mu crossing where
  dt := by decide
  volume := rfl
  unit := rfl
  lossless := by
    intro r
    have hz : (if (r.1 : ℕ) = 0 then (6 : ℤ) else 3) = 6 ∧ (r.1 : ℕ) = 0 ∨ (if (r.1 : ℕ) = 0 then (6 : ℤ) else 3) = 3 := by
      by_cases h : (r.1 : ℕ) = 0
      · exact Or.inl ⟨if_pos h, h⟩
      · exact Or.inr (if_neg h)
    refine ⟨?_, fun _ _ _ => ⟨?_, near_of_act (show act one 3 by decide), near_of_act (show act one 3 by decide)⟩,
      fun _ _ _ => ⟨fun h => absurd h (by decide), fun _ => show act one 3 by decide, fun _ => show act one 3 by decide⟩, ?_, fun _ _ _ => rfl, fun _ _ _ => rfl,
      fun _ _ _ => rfl, fun _ _ => rfl⟩
    · intro e he
      simp only [crossing, inputs, List.mem_singleton] at he
      subst he
      decide
    · show Near pair _ (if (r.1 : ℕ) = 0 then (6 : ℤ) else 3)
      rcases hz with ⟨h, h0⟩ | h
      · rw [h, h0]
        unfold Near
        decide
      · rw [h]
        exact near_of_act (show act pair 3 by decide)
    · intro n p m
      simp only [crossing, inputs, draw]
      split_ifs <;> decide
  near := by
    intro r n d
    refine ⟨fun _ => ?_, fun h => by cases h⟩
    fin_cases d <;> norm_num [crossing, MainLoop.two, PhotonSync.len]
  hydro := fun _ => rfl

theorem pair_wf : pair.WF := by constructor <;> decide

/-- The hypotheses can be met and something happens: the second rank's first zone takes the momentum of two packets. -/
example : ∃ s : St (Ranks pair one one) (Mem ℚ) (Mess ℚ), Reach (common (steps MainLoop.two coords SumMessages.wipedAll [crossing])) loaded s ∧
    Done (common (steps MainLoop.two coords SumMessages.wipedAll [crossing])) s ∧ (∀ r, (s.loc r).undef = false) ∧
    Fit SumMessages.wipedAll loaded ∧ ((s.loc rank1).U 3 3 3).U 0 ≠ 10 := by
  have hne : Nonempty (Ranks pair one one) := ⟨rank0⟩
  have hF : Fit SumMessages.wipedAll loaded := ⟨fun _ _ _ _ _ _ _ _ => rfl, fun _ => rfl⟩
  obtain ⟨s, hs, hd⟩ := C130_finishes (common (steps MainLoop.two coords SumMessages.wipedAll [crossing])) _
    (common_matched _ (steps_agree MainLoop.two coords SumMessages.wipedAll [crossing])) loaded (start loaded) Reach.start
  have hO := step_outcome (by decide) (by decide) (by decide) crossing MainLoop.two coords SumMessages.wipedAll rank0 loaded hF
  have es : s.loc = (step crossing MainLoop.two coords SumMessages.wipedAll).foldl (fun V I => exec I V) loaded := by
    rw [(C130_results _ _ (common_matched _ (steps_agree MainLoop.two coords SumMessages.wipedAll [crossing])) loaded s hs hd).1, lock_all]
    simp [steps]
  rw [← es] at hO
  refine ⟨s, hs, hd, fun r => ?_, hF, ?_⟩
  · rw [hO.undef]
    revert r
    decide +kernel
  · rw [hO.U]
    decide +kernel

end Nubhlight.RadMessages
