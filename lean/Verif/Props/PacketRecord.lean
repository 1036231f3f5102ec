import Verif.Common
import Verif.Model.PacketRecord
import Mathlib.Data.List.Pairwise

set_option autoImplicit false
set_option linter.unusedSectionVars false

/-!
C215: the record of a packet. The members of a packet share no byte and lie within the record, so do the members of the types HDF5 and MPI are given; whatever the number of packets and
their values, a restart file, a file of tracked packets and a message between ranks deliver every field of every packet with the bytes it had.
-/

namespace Nubhlight.PacketRecord

theorem le_roundUp {c a : ℕ} (ha : 0 < a) : c ≤ roundUp c a := by
  rw [roundUp]
  have h := Nat.div_add_mod (c + a - 1) a
  have h2 := Nat.mod_lt (c + a - 1) ha
  rw [mul_comm]
  omega

theorem le_endFrom (ds : List Decl) (h : ∀ d ∈ ds, 0 < d.elem) (c : ℕ) : c ≤ endFrom c ds := by
  induction ds generalizing c with
  | nil => exact le_refl _
  | cons d ds ih =>
    rw [endFrom]
    have h1 := ih (fun e he => h e (List.mem_cons_of_mem _ he)) (roundUp c d.elem + d.elem * d.count)
    have h2 := le_roundUp (c := c) (h d List.mem_cons_self)
    omega

theorem layout_bounds (ds : List Decl) (h : ∀ d ∈ ds, 0 < d.elem) (c : ℕ) :
    ∀ s ∈ layoutFrom c ds, c ≤ s.off ∧ s.off + s.size ≤ endFrom c ds := by
  induction ds generalizing c with
  | nil => intro s hs; exact absurd hs List.not_mem_nil
  | cons d ds ih =>
    intro s hs
    have hr := le_roundUp (c := c) (h d List.mem_cons_self)
    have hds : ∀ e ∈ ds, 0 < e.elem := fun e he => h e (List.mem_cons_of_mem _ he)
    rw [layoutFrom] at hs
    rw [endFrom]
    rcases List.mem_cons.1 hs with rfl | hs
    · exact ⟨hr, le_endFrom ds hds _⟩
    · have := ih hds _ s hs
      omega

/-- Members of a struct come one after the other. -/
theorem layout_pairwise (ds : List Decl) (h : ∀ d ∈ ds, 0 < d.elem) (c : ℕ) :
    (layoutFrom c ds).Pairwise fun a b => a.off + a.size ≤ b.off := by
  induction ds generalizing c with
  | nil => exact List.Pairwise.nil
  | cons d ds ih =>
    have hds : ∀ e ∈ ds, 0 < e.elem := fun e he => h e (List.mem_cons_of_mem _ he)
    rw [layoutFrom]
    exact List.Pairwise.cons (fun s hs => (layout_bounds ds hds _ s hs).1) (ih hds _)

theorem insertAll_ok (l : List Slot) (c : Compound) (hn : ((c.members ++ l).map Slot.name).Nodup) (hp : (c.members ++ l).Pairwise Apart)
    (hb : ∀ s ∈ l, s.off + s.size ≤ c.size) : insertAll c l = ⟨c.size, c.members ++ l⟩ := by
  induction l generalizing c with
  | nil => simp [insertAll]
  | cons s l ih =>
    rw [insertAll, List.foldl_cons]
    have h1 : insert c s = ⟨c.size, c.members ++ [s]⟩ := by
      rw [insert, if_pos]
      refine ⟨?_, ?_, hb s List.mem_cons_self⟩
      · intro m hm he
        rw [List.map_append, List.nodup_append] at hn
        exact hn.2.2 m.name (List.mem_map_of_mem hm) s.name (by simp) he
      · intro m hm
        exact (List.pairwise_append.1 hp).2.2 m hm s List.mem_cons_self
    rw [h1]
    have := ih ⟨c.size, c.members ++ [s]⟩ (by simpa using hn) (by simpa using hp) (fun t ht => hb t (List.mem_cons_of_mem _ ht))
    rw [insertAll] at this
    rw [this]
    simp

/-- Two jobs that write no common byte. -/
def Job.Apart (a b : Job) : Prop := a.dst + a.size ≤ b.dst ∨ b.dst + b.size ≤ a.dst

theorem run_untouched {B : Type} (s : Mem B) (l : List Job) (d : Mem B) (i : ℕ) (h : ∀ j ∈ l, ¬ (j.dst ≤ i ∧ i < j.dst + j.size)) : run s d l i = d i := by
  induction l generalizing d with
  | nil => rfl
  | cons j l ih =>
    rw [run, List.foldl_cons]
    have := ih (copy s d j) (fun j' hj' => h j' (List.mem_cons_of_mem _ hj'))
    rw [run] at this
    rw [this, copy, if_neg (h j List.mem_cons_self)]

theorem run_spec {B : Type} (s : Mem B) (l : List Job) (d : Mem B) (hp : l.Pairwise Job.Apart) (j : Job) (hj : j ∈ l) (i : ℕ) (hi : i < j.size) :
    run s d l (j.dst + i) = s (j.src + i) := by
  induction l generalizing d with
  | nil => exact absurd hj List.not_mem_nil
  | cons a l ih =>
    rw [run, List.foldl_cons]
    obtain ⟨h1, h2⟩ := List.pairwise_cons.1 hp
    rcases List.mem_cons.1 hj with rfl | hj
    · have := run_untouched s l (copy s d j) (j.dst + i) (by
        intro j' hj' hc
        have := h1 j' hj'
        rw [Job.Apart] at this
        omega)
      rw [run] at this
      rw [this, copy, if_pos ⟨by omega, by omega⟩]
      congr 1
      omega
    · have := ih (copy s d a) h2 hj
      rw [run] at this
      exact this

/-- A compound type HDF5 can use: names taken once, members apart and within the record. -/
structure Compound.Good (c : Compound) : Prop where
  names : (c.members.map Slot.name).Nodup
  apart : c.members.Pairwise Apart
  fits : ∀ s ∈ c.members, s.off + s.size ≤ c.size

theorem find_name (l : List Slot) (hn : (l.map Slot.name).Nodup) (s : Slot) (hs : s ∈ l) : (l.find? fun m => m.name = s.name) = some s := by
  induction l with
  | nil => exact absurd hs List.not_mem_nil
  | cons a l ih =>
    rw [List.map_cons, List.nodup_cons] at hn
    rcases List.mem_cons.1 hs with rfl | hs
    · simp
    · have hne : a.name ≠ s.name := fun he => hn.1 (he ▸ List.mem_map_of_mem hs)
      rw [List.find?_cons_of_neg (by simpa using hne)]
      exact ih hn.2 hs

/-- The copies for the records of an array write no byte twice. -/
theorem records_apart (n size : ℕ) (f : ℕ → List Job) (hf : ∀ k, (f k).Pairwise Job.Apart) (hb : ∀ k, ∀ j ∈ f k, k * size ≤ j.dst ∧ j.dst + j.size ≤ (k + 1) * size) :
    ((List.range n).flatMap f).Pairwise Job.Apart := by
  rw [List.pairwise_flatMap]
  refine ⟨fun k _ => hf k, ?_⟩
  refine List.Pairwise.imp ?_ (List.pairwise_lt_range (n := n))
  intro k l hkl a ha b hb'
  left
  have h1 := (hb k a ha).2
  have h2 := (hb l b hb').1
  have h3 : (k + 1) * size ≤ l * size := Nat.mul_le_mul_right _ hkl
  omega

theorem convertJobs_apart (a b : Compound) (hb : b.Good) (k : ℕ) : (convertJobs a b k).Pairwise Job.Apart := by
  rw [convertJobs, List.pairwise_filterMap]
  refine hb.apart.imp ?_
  intro x y hxy u hu v hv
  obtain ⟨x', -, rfl⟩ := Option.map_eq_some_iff.1 hu
  obtain ⟨y', -, rfl⟩ := Option.map_eq_some_iff.1 hv
  rcases hxy with h | h
  · left; show k * b.size + x.off + x.size ≤ k * b.size + y.off; omega
  · right; show k * b.size + y.off + y.size ≤ k * b.size + x.off; omega

/-- What HDF5 delivers: every member both types have, for every record. -/
theorem convert_spec {B : Type} (a b : Compound) (ha : a.Good) (hb : b.Good) (n : ℕ) (s d : Mem B) (k : ℕ) (hk : k < n) (x y : Slot) (hx : x ∈ a.members) (hy : y ∈ b.members)
    (hxy : x.name = y.name) (i : ℕ) (hi : i < y.size) : convert a b n s d (k * b.size + y.off + i) = s (k * a.size + x.off + i) := by
  have hmem : (⟨k * a.size + x.off, k * b.size + y.off, y.size⟩ : Job) ∈ (List.range n).flatMap (convertJobs a b) := by
    rw [List.mem_flatMap]
    refine ⟨k, List.mem_range.2 hk, ?_⟩
    rw [convertJobs, List.mem_filterMap]
    refine ⟨y, hy, ?_⟩
    rw [← hxy, find_name a.members ha.names x hx]
    rfl
  refine run_spec s _ d (records_apart n b.size _ (convertJobs_apart a b hb) ?_) _ hmem i hi
  intro l j hj
  rw [convertJobs, List.mem_filterMap] at hj
  obtain ⟨m, hm, he⟩ := hj
  obtain ⟨m', -, rfl⟩ := Option.map_eq_some_iff.1 he
  have := hb.fits m hm
  have h2 : (l + 1) * b.size = l * b.size + b.size := by ring
  constructor
  · show l * b.size ≤ l * b.size + m.off; omega
  · show l * b.size + m.off + m.size ≤ _; omega

theorem pos_ofPhoton (nsup ndim : ℕ) : ∀ d ∈ ofPhoton nsup ndim, 0 < d.elem := by
  intro d hd
  simp only [ofPhoton, List.mem_cons, List.not_mem_nil, or_false] at hd
  rcases hd with rfl | rfl | rfl | rfl | rfl | rfl | rfl | rfl | rfl | rfl | rfl | rfl <;> simp

theorem pos_ofTrack : ∀ d ∈ ofTrack, 0 < d.elem := by
  intro d hd
  simp only [ofTrack, List.mem_cons, List.not_mem_nil, or_false] at hd
  rcases hd with rfl | rfl | rfl | rfl <;> simp

theorem layout_names (ds : List Decl) (c : ℕ) : (layoutFrom c ds).map Slot.name = ds.map Decl.name := by
  induction ds generalizing c with
  | nil => rfl
  | cons d ds ih => rw [layoutFrom, List.map_cons, List.map_cons, ih]

theorem photon_names (nsup ndim : ℕ) : ((layoutFrom 0 (ofPhoton nsup ndim)).map Slot.name).Nodup := by
  rw [layout_names]
  simp [ofPhoton]

theorem end_le_sizeOf (ds : List Decl) : endFrom 0 ds ≤ sizeOf ds := by
  rw [sizeOf]
  refine le_roundUp ?_
  rw [maxAlign]
  induction ds with
  | nil => simp
  | cons d ds ih => rw [List.foldr_cons]; exact lt_of_lt_of_le ih (le_max_right _ _)

theorem pairwise_apart {l : List Slot} (h : l.Pairwise fun a b => a.off + a.size ≤ b.off) : l.Pairwise Apart := h.imp fun h => Or.inl h

/-- C215: the members of a packet share no byte and lie within the record. -/
theorem C215_members_apart (nsup ndim : ℕ) :
    (layoutFrom 0 (ofPhoton nsup ndim)).Pairwise Apart ∧ ∀ s ∈ layoutFrom 0 (ofPhoton nsup ndim), s.off + s.size ≤ sizeOf (ofPhoton nsup ndim) :=
  ⟨pairwise_apart (layout_pairwise _ (pos_ofPhoton nsup ndim) 0), fun s hs => le_trans (layout_bounds _ (pos_ofPhoton nsup ndim) 0 s hs).2 (end_le_sizeOf _)⟩

theorem hoffset_eq (ds : List Decl) (hn : ((layoutFrom 0 ds).map Slot.name).Nodup) (s : Slot) (hs : s ∈ layoutFrom 0 ds) : hoffset ds s.name = s.off := by
  rw [hoffset, find_name _ hn s hs]
  rfl

theorem memSlots_photon (nsup ndim : ℕ) : memSlots (ofPhoton nsup ndim) (phMembers nsup ndim) = (layoutFrom 0 (ofPhoton nsup ndim)).dropLast := by
  simp [memSlots, phMembers, hoffset, layoutFrom, ofPhoton, List.find?, mul_comm]

theorem dropLast_sub {α : Type} (l : List α) : l.dropLast.Sublist l := List.dropLast_sublist l

/-- C215: the type of packets in memory has all the members of a packet but the link to the next one, each at its own place; no insertion fails. -/
theorem C215_memory_type (nsup ndim : ℕ) :
    phMem nsup ndim = ⟨sizeOf (ofPhoton nsup ndim), (layoutFrom 0 (ofPhoton nsup ndim)).dropLast⟩ ∧ (phMem nsup ndim).Good := by
  have hsub := dropLast_sub (layoutFrom 0 (ofPhoton nsup ndim))
  have h1 : ((layoutFrom 0 (ofPhoton nsup ndim)).dropLast.map Slot.name).Nodup := (photon_names nsup ndim).sublist (hsub.map _)
  have h2 : (layoutFrom 0 (ofPhoton nsup ndim)).dropLast.Pairwise Apart := (C215_members_apart nsup ndim).1.sublist hsub
  have h3 : ∀ s ∈ (layoutFrom 0 (ofPhoton nsup ndim)).dropLast, s.off + s.size ≤ sizeOf (ofPhoton nsup ndim) := fun s hs =>
    (C215_members_apart nsup ndim).2 s (hsub.subset hs)
  have he : phMem nsup ndim = ⟨sizeOf (ofPhoton nsup ndim), (layoutFrom 0 (ofPhoton nsup ndim)).dropLast⟩ := by
    rw [phMem, memSlots_photon, insertAll_ok _ _ (by simpa using h1) (by simpa using h2) h3]
    rfl
  exact ⟨he, he ▸ ⟨h1, h2, h3⟩⟩

/-- C215: a restart returns every packet with every member it had: whatever was in the file and in the memory read into, for any number of packets, the bytes of each member but the link
are those written. -/
theorem C215_restart {B : Type} (nsup ndim n : ℕ) (m file m' : Mem B) (k : ℕ) (hk : k < n) (s : Slot) (hs : s ∈ layoutFrom 0 (ofPhoton nsup ndim)) (hl : s.name ≠ "next") (i : ℕ)
    (hi : i < s.size) :
    readPackets nsup ndim n (writePackets nsup ndim n m file) m' (k * sizeOf (ofPhoton nsup ndim) + s.off + i) = m (k * sizeOf (ofPhoton nsup ndim) + s.off + i) := by
  obtain ⟨he, hg⟩ := C215_memory_type nsup ndim
  have hs' : s ∈ (phMem nsup ndim).members := by
    rw [he]
    simp only [layoutFrom, ofPhoton, List.dropLast_cons₂, List.dropLast_singleton, List.mem_cons, List.not_mem_nil, or_false] at hs ⊢
    rcases hs with h | h | h | h | h | h | h | h | h | h | h | h
    all_goals first
      | (exfalso; apply hl; rw [h]; done)
      | simp [h]
  have hsize : (phMem nsup ndim).size = sizeOf (ofPhoton nsup ndim) := by rw [he]
  rw [readPackets, writePackets, ← hsize, convert_spec _ _ hg hg n _ m' k hk s s hs' hs' rfl i hi, convert_spec _ _ hg hg n m file k hk s s hs' hs' rfl i hi]

/-- A case of three packets: the weight of the second one, with three copies of the wave vector in four dimensions, is at byte 640 of the array. -/
example : sizeOf (ofPhoton 3 4) = 352 ∧ (⟨"w", 288, 8⟩ : Slot) ∈ layoutFrom 0 (ofPhoton 3 4) := by decide +kernel

/-- Bytes of all members. -/
def total (ds : List Decl) : ℕ := (ds.map fun d => d.elem * d.count).sum

theorem total_le_endFrom (ds : List Decl) (h : ∀ d ∈ ds, 0 < d.elem) (c : ℕ) : c + total ds ≤ endFrom c ds := by
  induction ds generalizing c with
  | nil => simp [total, endFrom]
  | cons d ds ih =>
    rw [endFrom, total, List.map_cons, List.sum_cons]
    have h1 := ih (fun e he => h e (List.mem_cons_of_mem _ he)) (roundUp c d.elem + d.elem * d.count)
    have h2 := le_roundUp (c := c) (h d List.mem_cons_self)
    rw [total] at h1
    omega

/-- Members one after the other without padding. -/
def dense (o : ℕ) (ds : List Decl) : List Slot := packed o (ds.map fun d => (d.name, d.elem * d.count, d.elem * d.count))

theorem dense_bounds (ds : List Decl) (o : ℕ) : ∀ s ∈ dense o ds, o ≤ s.off ∧ s.off + s.size ≤ o + total ds := by
  induction ds generalizing o with
  | nil => intro s hs; exact absurd hs List.not_mem_nil
  | cons d ds ih =>
    intro s hs
    rw [total, List.map_cons, List.sum_cons]
    rcases List.mem_cons.1 hs with rfl | hs
    · exact ⟨le_refl _, by show o + d.elem * d.count ≤ _; omega⟩
    · have := ih (o + d.elem * d.count) s hs
      rw [total] at this
      omega

theorem dense_pairwise (ds : List Decl) (o : ℕ) : (dense o ds).Pairwise fun a b => a.off + a.size ≤ b.off := by
  induction ds generalizing o with
  | nil => exact List.Pairwise.nil
  | cons d ds ih => exact List.Pairwise.cons (fun s hs => (dense_bounds ds _ s hs).1) (ih _)

theorem dense_names (ds : List Decl) (o : ℕ) : (dense o ds).map Slot.name = ds.map Decl.name := by
  induction ds generalizing o with
  | nil => rfl
  | cons d ds ih =>
    show d.name :: (dense (o + d.elem * d.count) ds).map Slot.name = _
    rw [ih, List.map_cons]

theorem dense_type (size : ℕ) (ds : List Decl) (hn : (ds.map Decl.name).Nodup) (hs : total ds ≤ size) :
    insertAll ⟨size, []⟩ (dense 0 ds) = ⟨size, dense 0 ds⟩ ∧ (⟨size, dense 0 ds⟩ : Compound).Good := by
  have h1 : ((dense 0 ds).map Slot.name).Nodup := by rw [dense_names]; exact hn
  have h2 : (dense 0 ds).Pairwise Apart := pairwise_apart (dense_pairwise ds 0)
  have h3 : ∀ s ∈ dense 0 ds, s.off + s.size ≤ size := fun s hs' => by
    have := (dense_bounds ds 0 s hs').2
    omega
  exact ⟨by rw [insertAll_ok _ _ (by simpa using h1) (by simpa using h2) h3]; rfl, ⟨h1, h2, h3⟩⟩

theorem total_le_sizeOf (ds : List Decl) (h : ∀ d ∈ ds, 0 < d.elem) : total ds ≤ sizeOf ds := by
  have h1 := total_le_endFrom ds h 0
  have h2 := end_le_sizeOf ds
  omega

/-- C215: the packed type too has all its members, each of the size of the member in memory, though no dataset is written with it. -/
theorem C215_file_type (nsup ndim : ℕ) :
    (phFile nsup ndim).Good ∧ (phFile nsup ndim).members.map (fun s => (s.name, s.size)) = (phMem nsup ndim).members.map fun s => (s.name, s.size) := by
  have hl : phFile nsup ndim = insertAll ⟨sizeOf (ofPhoton nsup ndim), []⟩ (dense 0 (ofPhoton nsup ndim).dropLast) := by
    simp [phFile, dense, packed, ofPhoton, mul_comm]
  have ht : total (ofPhoton nsup ndim).dropLast ≤ sizeOf (ofPhoton nsup ndim) := by
    refine le_trans ?_ (total_le_sizeOf _ (pos_ofPhoton nsup ndim))
    simp [total, ofPhoton]
  obtain ⟨h1, h2⟩ := dense_type _ _ (by simp [ofPhoton]) ht
  rw [hl, h1]
  refine ⟨h2, ?_⟩
  rw [(C215_memory_type nsup ndim).1]
  simp [dense, packed, ofPhoton, layoutFrom]

theorem track_memory_type : trackMem = ⟨sizeOf ofTrack, layoutFrom 0 ofTrack⟩ ∧ trackMem.Good := by
  have h1 : ((layoutFrom 0 ofTrack).map Slot.name).Nodup := by rw [layout_names]; simp [ofTrack]
  have h2 : (layoutFrom 0 ofTrack).Pairwise Apart := pairwise_apart (layout_pairwise _ pos_ofTrack 0)
  have h3 : ∀ s ∈ layoutFrom 0 ofTrack, s.off + s.size ≤ sizeOf ofTrack := fun s hs => le_trans (layout_bounds _ pos_ofTrack 0 s hs).2 (end_le_sizeOf _)
  have hm : memSlots ofTrack [("X1", 8), ("X2", 8), ("X3", 8), ("nscatt", 4)] = layoutFrom 0 ofTrack := by decide +kernel
  have he : trackMem = ⟨sizeOf ofTrack, layoutFrom 0 ofTrack⟩ := by
    rw [trackMem, hm, insertAll_ok _ _ (by simpa using h1) (by simpa using h2) h3]
    rfl
  exact ⟨he, he ▸ ⟨h1, h2, h3⟩⟩

theorem track_file_type (nsup ndim : ℕ) : trackFile nsup ndim = ⟨sizeOf (ofPhoton nsup ndim), dense 0 ofTrack⟩ ∧ (trackFile nsup ndim).Good := by
  have hl : trackFile nsup ndim = insertAll ⟨sizeOf (ofPhoton nsup ndim), []⟩ (dense 0 ofTrack) := by simp [trackFile, dense, packed, ofTrack]
  have ht : total ofTrack ≤ sizeOf (ofPhoton nsup ndim) := by
    refine le_trans ?_ (total_le_sizeOf _ (pos_ofPhoton nsup ndim))
    simp [total, ofPhoton, ofTrack]
    omega
  obtain ⟨h1, h2⟩ := dense_type _ _ (by simp [ofTrack]) ht
  have he := hl.trans h1
  exact ⟨he, he ▸ h2⟩

/-- C215: the file of tracked packets gives, for every packet, its position and its number of scatterings: each member of the record in memory has a member of that name and size in the record of the
file, with the same bytes, and members of the file share none. -/
theorem C215_tracked {B : Type} (nsup ndim n : ℕ) (m file : Mem B) (k : ℕ) (hk : k < n) (s : Slot) (hs : s ∈ layoutFrom 0 ofTrack) :
    (trackFile nsup ndim).Good ∧ ∃ f ∈ (trackFile nsup ndim).members, f.name = s.name ∧ f.size = s.size ∧
      ∀ i < s.size, writeTracked nsup ndim n m file (k * (trackFile nsup ndim).size + f.off + i) = m (k * sizeOf ofTrack + s.off + i) := by
  obtain ⟨hm, hmg⟩ := track_memory_type
  obtain ⟨hf, hfg⟩ := track_file_type nsup ndim
  refine ⟨hfg, ?_⟩
  have hmem : ∃ f ∈ dense 0 ofTrack, f.name = s.name ∧ f.size = s.size := by
    revert s
    decide +kernel
  obtain ⟨f, hfm, hn, hsz⟩ := hmem
  have hfm' : f ∈ (trackFile nsup ndim).members := by rw [hf]; exact hfm
  refine ⟨f, hfm', hn, hsz, ?_⟩
  intro i hi
  have hsz2 : trackMem.size = sizeOf ofTrack := by rw [hm]
  rw [writeTracked, convert_spec trackMem (trackFile nsup ndim) hmg hfg n m file k hk s f (by rw [hm]; exact hs) hfm' hn.symm i (by omega), hsz2]

theorem mpiType_base (nsup ndim base : ℕ) : mpiType nsup ndim base = mpiType nsup ndim 0 := by
  have h : ∀ name, disp nsup ndim base name = disp nsup ndim 0 name := fun name => by rw [disp, disp]; omega
  simp only [mpiType, h]

theorem mpi_layout (nsup ndim base : ℕ) :
    (mpiType nsup ndim base).map (fun e => (e.disp, e.blocklen * e.elem)) = (layoutFrom 0 (ofPhoton nsup ndim)).map fun s => (s.off, s.size) := by
  simp [mpiType, mpiNames, mpiBlocks, mpiTypes, disp, hoffset, layoutFrom, ofPhoton, List.find?, mul_comm]

theorem last_end (ds : List Decl) (h : ∀ d ∈ ds, 0 < d.elem) (c : ℕ) (hne : ds ≠ []) :
    (layoutFrom c ds).foldr (fun s a => max (s.off + s.size) a) 0 = endFrom c ds := by
  induction ds generalizing c with
  | nil => exact absurd rfl hne
  | cons d ds ih =>
    have hds : ∀ e ∈ ds, 0 < e.elem := fun e he => h e (List.mem_cons_of_mem _ he)
    rw [layoutFrom, List.foldr_cons, endFrom]
    by_cases h0 : ds = []
    · subst h0
      simp [layoutFrom, endFrom]
    · rw [ih hds _ h0]
      exact max_eq_right (le_endFrom ds hds _)

/-- C215: the type of messages has the length of a packet, so that the packets of a message follow one another as in the buffers. -/
theorem C215_extent (nsup ndim base : ℕ) : extent (mpiType nsup ndim base) = sizeOf (ofPhoton nsup ndim) := by
  have h1 : (mpiType nsup ndim base).foldr (fun e a => max (e.disp + e.blocklen * e.elem) a) 0 = endFrom 0 (ofPhoton nsup ndim) := by
    rw [← last_end _ (pos_ofPhoton nsup ndim) 0 (by simp [ofPhoton])]
    have e1 : (mpiType nsup ndim base).foldr (fun e a => max (e.disp + e.blocklen * e.elem) a) 0 =
        ((mpiType nsup ndim base).map fun e => (e.disp, e.blocklen * e.elem)).foldr (fun p a => max (p.1 + p.2) a) 0 := by rw [List.foldr_map]
    rw [e1, mpi_layout, List.foldr_map]
  rw [extent, h1, sizeOf]
  rfl

/-- C215: a message delivers every packet with every member it had, for any number of packets and whatever was in the buffer that receives. -/
theorem C215_message {B : Type} (nsup ndim baseS baseR n : ℕ) (m buf : Mem B) (k : ℕ) (hk : k < n) (s : Slot) (hs : s ∈ layoutFrom 0 (ofPhoton nsup ndim)) (i : ℕ) (hi : i < s.size) :
    sendPackets nsup ndim baseS baseR n m buf (k * sizeOf (ofPhoton nsup ndim) + s.off + i) = m (k * sizeOf (ofPhoton nsup ndim) + s.off + i) := by
  have hj : ∀ l, sendJobs (mpiType nsup ndim baseS) (mpiType nsup ndim baseR) l = (layoutFrom 0 (ofPhoton nsup ndim)).map fun s =>
      ⟨l * sizeOf (ofPhoton nsup ndim) + s.off, l * sizeOf (ofPhoton nsup ndim) + s.off, s.size⟩ := by
    intro l
    rw [sendJobs, mpiType_base nsup ndim baseS, mpiType_base nsup ndim baseR, C215_extent, List.zipWith_self]
    have e1 : (mpiType nsup ndim 0).map (fun e => (⟨l * sizeOf (ofPhoton nsup ndim) + e.disp, l * sizeOf (ofPhoton nsup ndim) + e.disp, e.blocklen * e.elem⟩ : Job)) =
        ((mpiType nsup ndim 0).map fun e => (e.disp, e.blocklen * e.elem)).map fun p => ⟨l * sizeOf (ofPhoton nsup ndim) + p.1, l * sizeOf (ofPhoton nsup ndim) + p.1, p.2⟩ := by
      rw [List.map_map]; rfl
    rw [e1, mpi_layout, List.map_map]
    rfl
  rw [sendPackets]
  refine run_spec m _ buf (records_apart n (sizeOf (ofPhoton nsup ndim)) _ ?_ ?_)
    ⟨k * sizeOf (ofPhoton nsup ndim) + s.off, k * sizeOf (ofPhoton nsup ndim) + s.off, s.size⟩ ?_ i hi
  · intro l
    rw [hj l, List.pairwise_map]
    refine (C215_members_apart nsup ndim).1.imp ?_
    intro a b hab
    rcases hab with h | h
    · left; show l * _ + a.off + a.size ≤ l * _ + b.off; omega
    · right; show l * _ + b.off + b.size ≤ l * _ + a.off; omega
  · intro l j hjm
    rw [hj l, List.mem_map] at hjm
    obtain ⟨a, ha, rfl⟩ := hjm
    have := (C215_members_apart nsup ndim).2 a ha
    have h2 : (l + 1) * sizeOf (ofPhoton nsup ndim) = l * sizeOf (ofPhoton nsup ndim) + sizeOf (ofPhoton nsup ndim) := by ring
    constructor
    · show l * _ ≤ l * _ + a.off; omega
    · show l * _ + a.off + a.size ≤ _; omega
  · rw [List.mem_flatMap]
    exact ⟨k, List.mem_range.2 hk, by rw [hj k]; exact List.mem_map_of_mem hs⟩

/-- A case: the link to the next packet is sent along with the packet, at byte 344 of each; it points into the memory of the rank that sent it. -/
example : (⟨"next", 344, 8⟩ : Slot) ∈ layoutFrom 0 (ofPhoton 3 4) := by decide +kernel

/-- C215: bytes the types do not name keep what they had: a packet read from a file keeps the link that was in memory. -/
theorem C215_link {B : Type} (nsup ndim n : ℕ) (file m : Mem B) (k : ℕ) (s : Slot) (hs : s ∈ layoutFrom 0 (ofPhoton nsup ndim)) (hl : s.name = "next") (i : ℕ)
    (hi : i < s.size) :
    readPackets nsup ndim n file m (k * sizeOf (ofPhoton nsup ndim) + s.off + i) = m (k * sizeOf (ofPhoton nsup ndim) + s.off + i) := by
  obtain ⟨he, hg⟩ := C215_memory_type nsup ndim
  rw [readPackets, convert]
  refine run_untouched file _ m _ ?_
  intro j hj hc
  rw [List.mem_flatMap] at hj
  obtain ⟨l, -, hj⟩ := hj
  rw [convertJobs, List.mem_filterMap] at hj
  obtain ⟨a, ha, ha'⟩ := hj
  obtain ⟨a', -, rfl⟩ := Option.map_eq_some_iff.1 ha'
  have hsize : (phMem nsup ndim).size = sizeOf (ofPhoton nsup ndim) := by rw [he]
  have hfit := hg.fits a ha
  have hfs := (C215_members_apart nsup ndim).2 s hs
  rw [hsize] at hfit
  obtain ⟨hc1, hc2⟩ := hc
  dsimp only at hc1 hc2
  rw [hsize] at hc1 hc2
  rw [he] at ha
  have hal : a ∈ layoutFrom 0 (ofPhoton nsup ndim) := (dropLast_sub _).subset ha
  have hne : a ≠ s := by
    intro h
    rw [h] at ha
    have hnd := photon_names nsup ndim
    simp only [layoutFrom, ofPhoton, List.dropLast_cons₂, List.dropLast_singleton, List.mem_cons, List.not_mem_nil, or_false] at ha
    rcases ha with h' | h' | h' | h' | h' | h' | h' | h' | h' | h' | h' <;> (rw [h'] at hl; exact absurd hl (by simp))
  have hkl : k = l := by
    rcases Nat.lt_trichotomy k l with h | h | h
    · have := Nat.mul_le_mul_right (sizeOf (ofPhoton nsup ndim)) h
      have h2 : (k + 1) * sizeOf (ofPhoton nsup ndim) = k * sizeOf (ofPhoton nsup ndim) + sizeOf (ofPhoton nsup ndim) := by ring
      have h3 : k.succ * sizeOf (ofPhoton nsup ndim) = (k + 1) * sizeOf (ofPhoton nsup ndim) := rfl
      omega
    · exact h
    · have := Nat.mul_le_mul_right (sizeOf (ofPhoton nsup ndim)) h
      have h2 : (l + 1) * sizeOf (ofPhoton nsup ndim) = l * sizeOf (ofPhoton nsup ndim) + sizeOf (ofPhoton nsup ndim) := by ring
      have h3 : l.succ * sizeOf (ofPhoton nsup ndim) = (l + 1) * sizeOf (ofPhoton nsup ndim) := rfl
      omega
  subst hkl
  have hap : Apart a s ∨ Apart s a := by
    haveI : Std.Symm Apart := ⟨fun x y h => h.symm⟩
    exact Or.inl ((C215_members_apart nsup ndim).1.forall hal hs hne)
  rcases hap with (h | h) | (h | h) <;> omega

end Nubhlight.PacketRecord
