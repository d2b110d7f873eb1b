/-
C103: boundary conditions and macroscopic values on cell lists.
-/
import Verif.SparseBoundary
import Verif.Props.Sparse
import Verif.Props.HydroMethods

namespace Lbm

variable {D Q : ℕ} {V : Type}

/-! ### Specification -/

/-- cell a link access refers to -/
def Spec.cell (x : Vec D) (d : Fin Q) (a : LinkAccess Q) : Vec D := fun i => x i + (a.offset d).getD i.val 0

/-- one assignment on a dense array -/
def Spec.denseAssign (a : LinkAssignment Q V) (l : Vec D × Fin Q) (F : Vec D → Fin Q → V) : Vec D → Fin Q → V := fun y i =>
  if y = Spec.cell l.1 l.2 a.lhs ∧ i = a.lhs.index l.2 then
    a.rhs l.2 (a.reads.map fun r => F (Spec.cell l.1 l.2 r) (r.index l.2))
  else F y i

/-- the boundary kernel on a dense array: all assignments, link by link -/
def Spec.denseBoundary (eqs : List (LinkAssignment Q V)) (links : List (Vec D × Fin Q)) (F : Vec D → Fin Q → V) :
    Vec D → Fin Q → V :=
  links.foldl (fun F l => eqs.foldl (fun F a => Spec.denseAssign a l F) F) F

/-- a list in one of the two layouts holds the populations `F` -/
def Spec.RepIn (aos : Bool) (m : SparseMapper D) (mem : ℕ → V) (F : Vec D → Fin Q → V) : Prop :=
  ∀ (k : ℕ) (x : Vec D) (i : Fin Q), m.coords[k]? = some x → mem ((listLayout aos m.len Q).addr k i.val) = F x i

/-- all accesses of an assignment -/
def LinkAssignment.accesses (a : LinkAssignment Q V) : List (LinkAccess Q) := a.lhs :: a.reads

/-! ### Helpers -/

theorem cellIdxBulk_of_active (m : SparseMapper D) (hd : Spec.Disjoint m) {x : Vec D} (hx : Spec.Active m x) :
    ∃ k, m.cellIdxBulk x = .ok k ∧ m.coords[k]? = some x := by
  obtain ⟨k, hk⟩ := (C32_numbering m hd x).2.1.mpr hx
  refine ⟨k, ?_, m.cellIdx_ok hk⟩
  unfold SparseMapper.cellIdx at hk
  unfold SparseMapper.cellIdxBulk
  by_cases h : m.searchLeft x + 1 ≠ m.searchRight x
  · rw [if_pos h] at hk; cases hk
  · rw [if_neg h] at hk ⊢; exact hk

theorem layout_inj (aos : Bool) {N : ℕ} {k k' : ℕ} {i i' : Fin Q} (hk : k < N) (hk' : k' < N)
    (h : (listLayout aos N Q).addr k i.val = (listLayout aos N Q).addr k' i'.val) : k = k' ∧ i = i' := by
  cases aos
  · simp only [listLayout, ListLayout.addr, Bool.false_eq_true, if_false, mul_one] at h
    obtain ⟨h1, h2⟩ := addr_inj hk hk' h
    exact ⟨h1, Fin.ext h2⟩
  · simp only [listLayout, ListLayout.addr, if_true, mul_one] at h
    have : i.val = i'.val ∧ k = k' := addr_inj (N := Q) i.isLt i'.isLt (by omega)
    exact ⟨this.2, Fin.ext this.1⟩

theorem mapM_ok {α β : Type} (f : α → Except PyErr β) (g : α → β) (l : List α) (h : ∀ a ∈ l, f a = .ok (g a)) :
    l.mapM f = .ok (l.map g) := by
  induction l with
  | nil => rfl
  | cons a l ih =>
    rw [List.mapM_cons, h a (by simp), ih fun b hb => h b (by simp [hb])]
    rfl

theorem mem_neighborOffsets {eqs : List (LinkAssignment Q V)} {a : LinkAssignment Q V} (ha : a ∈ eqs) {r : LinkAccess Q}
    (hr : r ∈ a.accesses) : r.offset ∈ neighborOffsets eqs := by
  unfold neighborOffsets
  rw [List.mem_dedup, List.mem_flatMap]
  refine ⟨a, ha, ?_⟩
  unfold LinkAssignment.offsets
  rcases List.mem_cons.mp hr with rfl | hr
  · simp
  · simp only [List.cons_append, List.mem_cons, List.mem_append, List.mem_map]
    exact Or.inr (Or.inl ⟨r, hr, rfl⟩)

/-- offsets of equations without additional data come from their accesses -/
theorem neighborOffsets_mem {eqs : List (LinkAssignment Q V)} (hdata : ∀ a ∈ eqs, a.data = false) {o : Fin Q → List ℤ}
    (ho : o ∈ neighborOffsets eqs) : ∃ a ∈ eqs, ∃ r ∈ a.accesses, r.offset = o := by
  unfold neighborOffsets at ho
  rw [List.mem_dedup, List.mem_flatMap] at ho
  obtain ⟨a, ha, h⟩ := ho
  refine ⟨a, ha, ?_⟩
  unfold LinkAssignment.offsets at h
  rw [hdata a ha] at h
  simp only [Bool.false_eq_true, if_false, List.append_nil, List.mem_cons, List.mem_map] at h
  rcases h with h | ⟨r, hr, h⟩
  · exact ⟨a.lhs, by simp [LinkAssignment.accesses], h.symm⟩
  · exact ⟨r, by simp [LinkAssignment.accesses, hr], h⟩

theorem repIn_update (aos : Bool) (m : SparseMapper D) (hd : Spec.Disjoint m) {mem : ℕ → V} {F : Vec D → Fin Q → V}
    (h : Spec.RepIn aos m mem F) {k : ℕ} {y : Vec D} (hk : m.coords[k]? = some y) (i : Fin Q) (v : V) :
    Spec.RepIn aos m (Function.update mem ((listLayout aos m.len Q).addr k i.val) v)
      (fun z j => if z = y ∧ j = i then v else F z j) := by
  intro k' z j hk'
  obtain ⟨hkl, hky⟩ := List.getElem?_eq_some_iff.mp hk
  obtain ⟨hkl', hkz⟩ := List.getElem?_eq_some_iff.mp hk'
  by_cases he : k' = k ∧ j = i
  · obtain ⟨rfl, rfl⟩ := he
    have : z = y := hkz.symm.trans hky
    simp [this]
  · have hne : (listLayout aos m.len Q).addr k' j.val ≠ (listLayout aos m.len Q).addr k i.val :=
      fun e => he (layout_inj aos hkl' hkl e)
    rw [Function.update_of_ne hne, h k' z j hk']
    refine (if_neg ?_).symm
    rintro ⟨rfl, rfl⟩
    exact he ⟨(List.Nodup.getElem_inj_iff (m.nodup_coords hd) (hi := hkl') (hj := hkl)).mp (hkz.trans hky.symm), rfl⟩

/-! ### Boundary kernels -/

/-- C103. A boundary condition on cell lists is the one on arrays: if the equations do not use additional data, their
offsets have as many entries as the domain has dimensions, and every cell accessed is a fluid or boundary cell of the
mapping, then the index list is created, and for every state the kernel on the list (in both layouts) does what the
kernel on the array does - for every boundary condition, every list of links in every order. -/
theorem C103_boundary (aos : Bool) (m : SparseMapper D) (hd : Spec.Disjoint m) (eqs : List (LinkAssignment Q V))
    (hdata : ∀ a ∈ eqs, a.data = false) (hlen : ∀ a ∈ eqs, ∀ r ∈ a.accesses, ∀ d, D ≤ (r.offset d).length)
    (links : List (Vec D × Fin Q))
    (hact : ∀ l ∈ links, ∀ a ∈ eqs, ∀ r ∈ a.accesses, Spec.Active m (Spec.cell l.1 l.2 r)) :
    ∃ entries, createIndexArr m true eqs links = .ok entries ∧
      ∀ mem F, Spec.RepIn aos m mem F →
        Spec.RepIn aos m (sparseBoundary (listLayout aos m.len Q) eqs entries mem) (Spec.denseBoundary eqs links F) := by
  classical
  have hbulk : ∀ l ∈ links, ∀ o ∈ neighborOffsets eqs, ∃ k, m.cellIdxBulk (shiftCell l.1 (o l.2)) = .ok k ∧
      m.coords[k]? = some (shiftCell l.1 (o l.2)) := by
    intro l hl o ho
    obtain ⟨a, ha, r, hr, rfl⟩ := neighborOffsets_mem hdata ho
    exact cellIdxBulk_of_active m hd (hact l hl a ha r hr)
  let num : Vec D → ℕ := fun x => if h : ∃ k, m.cellIdxBulk x = .ok k then h.choose else 0
  have hnum : ∀ x k, m.cellIdxBulk x = .ok k → num x = k := by
    intro x k h
    have hex : ∃ k, m.cellIdxBulk x = .ok k := ⟨k, h⟩
    have := hex.choose_spec.symm.trans h
    simp only [num, dif_pos hex]
    exact Except.ok.inj this
  let entry : Vec D × Fin Q → LinkEntry Q := fun l => ⟨l.2, (neighborOffsets eqs).map fun o => num (shiftCell l.1 (o l.2))⟩
  refine ⟨links.map entry, ?_, ?_⟩
  · unfold createIndexArr
    rw [if_neg (by simp), if_neg]
    · apply mapM_ok
      intro l hl
      rw [mapM_ok _ (fun o => num (shiftCell l.1 (o l.2)))]
      · rfl
      · intro o ho
        obtain ⟨k, hk, _⟩ := hbulk l hl o ho
        rw [hk, hnum _ _ hk]
    · rintro ⟨o, ho, d, hlt⟩
      obtain ⟨a, ha, r, hr, rfl⟩ := neighborOffsets_mem hdata ho
      exact absurd (hlen a ha r hr d) (by omega)
  · have haddr : ∀ l ∈ links, ∀ a ∈ eqs, ∀ r ∈ a.accesses, ∃ k, m.coords[k]? = some (Spec.cell l.1 l.2 r) ∧
        sparseAddr (listLayout aos m.len Q) eqs (entry l) r = (listLayout aos m.len Q).addr k (r.index l.2).val := by
      intro l hl a ha r hr
      have ho := mem_neighborOffsets ha hr
      obtain ⟨k, hk, hc⟩ := hbulk l hl _ ho
      refine ⟨k, hc, ?_⟩
      unfold sparseAddr offsetNumber
      congr 1
      have hlt := List.idxOf_lt_length_of_mem ho
      simp only [entry]
      rw [List.getD_eq_getElem?_getD, List.getElem?_map, List.getElem?_eq_getElem hlt]
      simp only [Option.map_some, Option.getD_some, List.getElem_idxOf]
      exact hnum _ _ hk
    have hone : ∀ l ∈ links, ∀ as : List (LinkAssignment Q V), (∀ a ∈ as, a ∈ eqs) → ∀ mem F, Spec.RepIn aos m mem F →
        Spec.RepIn aos m (as.foldl (fun mem a => Function.update mem
            (sparseAddr (listLayout aos m.len Q) eqs (entry l) a.lhs) (a.rhs (entry l).dir
              (a.reads.map fun r => mem (sparseAddr (listLayout aos m.len Q) eqs (entry l) r)))) mem)
          (as.foldl (fun F a => Spec.denseAssign a l F) F) := by
      intro l hl as
      induction as with
      | nil => intro _ mem F h; exact h
      | cons a as ih =>
        intro has mem F h
        rw [List.foldl_cons, List.foldl_cons]
        apply ih fun b hb => has b (by simp [hb])
        have ha := has a (by simp)
        obtain ⟨k, hk, hka⟩ := haddr l hl a ha a.lhs (by simp [LinkAssignment.accesses])
        have hreads : (a.reads.map fun r => mem (sparseAddr (listLayout aos m.len Q) eqs (entry l) r)) =
            a.reads.map fun r => F (Spec.cell l.1 l.2 r) (r.index l.2) := by
          apply List.map_congr_left
          intro r hr
          obtain ⟨k', hk', hka'⟩ := haddr l hl a ha r (by simp [LinkAssignment.accesses, hr])
          rw [hka', h k' _ _ hk']
        rw [hka, hreads]
        exact repIn_update aos m hd h hk _ _
    intro mem F h
    unfold sparseBoundary Spec.denseBoundary
    have key : ∀ ls : List (Vec D × Fin Q), (∀ l ∈ ls, l ∈ links) → ∀ mem F, Spec.RepIn aos m mem F →
        Spec.RepIn aos m ((ls.map entry).foldl (fun mem e => eqs.foldl (fun mem a =>
            Function.update mem (sparseAddr (listLayout aos m.len Q) eqs e a.lhs)
              (a.rhs e.dir (a.reads.map fun r => mem (sparseAddr (listLayout aos m.len Q) eqs e r)))) mem) mem)
          (ls.foldl (fun F l => eqs.foldl (fun F a => Spec.denseAssign a l F) F) F) := by
      intro ls
      induction ls with
      | nil => intro _ mem F h; exact h
      | cons l ls ih =>
        intro hls mem F h
        rw [List.map_cons, List.foldl_cons, List.foldl_cons]
        exact ih (fun b hb => hls b (by simp [hb])) _ _ (hone l (hls l (by simp)) eqs (fun _ h => h) mem F h)
    exact key links (fun _ h => h) mem F h

/-- C103. Together with C32: any number of time steps on lists, each with the kernel of a boundary condition before the
sweep, are those on arrays. -/
theorem C103_run (m : SparseMapper D) {gl : ℕ} {inv : Fin m.stencil.Q → Fin m.stencil.Q} (hs : Spec.SparseSetup m gl inv)
    (rows : List (List ℕ)) (hr : m.createIndexArray gl = .ok rows)
    (collide : (Fin m.stencil.Q → V) → Fin m.stencil.Q → V) (eqs : List (LinkAssignment m.stencil.Q V))
    (hdata : ∀ a ∈ eqs, a.data = false) (hlen : ∀ a ∈ eqs, ∀ r ∈ a.accesses, ∀ d, D ≤ (r.offset d).length)
    (links : List (Vec D × Fin m.stencil.Q))
    (hact : ∀ l ∈ links, ∀ a ∈ eqs, ∀ r ∈ a.accesses, Spec.Active m (Spec.cell l.1 l.2 r)) :
    ∃ entries, createIndexArr m true eqs links = .ok entries ∧
      ∀ (n : ℕ) (src dst : ℕ → V) (F G : Vec D → Fin m.stencil.Q → V), Spec.Rep m src F → Spec.Rep m dst G →
        Spec.Rep m
          ((fun s : (ℕ → V) × (ℕ → V) =>
            let b := sparseBoundary (listLayout false m.len m.stencil.Q) eqs entries s.1
            (sparseSweep (listLayout false m.len m.stencil.Q) (Spec.idxArray rows) collide (List.range m.numFluid) b s.2,
              b))^[n] (src, dst)).1
          ((fun s : (Vec D → Fin m.stencil.Q → V) × (Vec D → Fin m.stencil.Q → V) =>
            let b := Spec.denseBoundary eqs links s.1
            (Spec.denseStep m gl inv collide b s.2, b))^[n] (F, G)).1 := by
  have hrep : ∀ (mem : ℕ → V) (F : Vec D → Fin m.stencil.Q → V), Spec.RepIn false m mem F ↔ Spec.Rep m mem F := by
    intro mem F
    simp [Spec.RepIn, Spec.Rep, listLayout, ListLayout.addr]
  obtain ⟨entries, he, hb⟩ := C103_boundary false m hs.disjoint eqs hdata hlen links hact
  refine ⟨entries, he, fun n => ?_⟩
  induction n with
  | zero => intro src dst F G h _; exact h
  | succ n ih =>
    intro src dst F G hF hG
    rw [Function.iterate_succ_apply, Function.iterate_succ_apply]
    have h1 := (hrep _ _).mp (hb src F ((hrep _ _).mpr hF))
    exact ih _ _ _ _ (C32_step m hs rows hr collide _ _ _ _ h1 hG) h1

/-! ### No-slip -/

/-- bounce back as a boundary condition of the four-argument kind: `f(offset of dir)[inv dir] = f[dir]` -/
def Spec.bounceBack [Inhabited V] (S : Stencil D) (inv : Fin S.Q → Fin S.Q) : LinkAssignment S.Q V where
  lhs := ⟨fun d => List.ofFn (S.c d), inv⟩
  reads := [⟨fun _ => List.replicate D 0, fun d => d⟩]
  data := false
  rhs := fun _ l => l.headI

/-- links of a boundary: fluid cell and direction towards a boundary cell of the mapping -/
def Spec.IsBoundaryLink (m : SparseMapper D) (l : Vec D × Fin m.stencil.Q) : Prop :=
  Spec.InBounds m.flags l.1 ∧ m.flags.flag l.1 &&& m.fluid ≠ 0 ∧
    Spec.InBounds m.flags (l.1 + m.stencil.c l.2) ∧ m.flags.flag (l.1 + m.stencil.c l.2) &&& m.boundary ≠ 0

/-- the same flags, with the boundary cells declared as no-slip cells of the mapping -/
abbrev Spec.asNoSlip (m : SparseMapper D) : SparseMapper D := { m with noSlip := m.noSlip ||| m.boundary, boundary := 0 }

section noSlip

variable [Inhabited V] (m : SparseMapper D) {gl : ℕ} {inv : Fin m.stencil.Q → Fin m.stencil.Q}

theorem cell_lhs (x : Vec D) (d : Fin m.stencil.Q) :
    Spec.cell x d (Spec.bounceBack (V := V) m.stencil inv).lhs = x + m.stencil.c d := by
  funext i
  simp [Spec.cell, Spec.bounceBack, List.getD_eq_getElem?_getD]

theorem cell_read (x : Vec D) (d : Fin m.stencil.Q) {r : LinkAccess m.stencil.Q}
    (hr : r ∈ (Spec.bounceBack (V := V) m.stencil inv).reads) : Spec.cell x d r = x := by
  simp only [Spec.bounceBack, List.mem_singleton] at hr
  subst hr
  funext i
  simp [Spec.cell, List.getD_eq_getElem?_getD]

theorem denseAssign_bounceBack (x : Vec D) (d : Fin m.stencil.Q) (F : Vec D → Fin m.stencil.Q → V) (y : Vec D)
    (i : Fin m.stencil.Q) : Spec.denseAssign (Spec.bounceBack m.stencil inv) (x, d) F y i =
      if y = x + m.stencil.c d ∧ i = inv d then F x d else F y i := by
  unfold Spec.denseAssign
  rw [cell_lhs m x d]
  have : (Spec.bounceBack (V := V) m.stencil inv).rhs d ((Spec.bounceBack (V := V) m.stencil inv).reads.map fun r =>
      F (Spec.cell x d r) (r.index d)) = F x d := by
    have hc := cell_read (V := V) (inv := inv) m x d (List.mem_singleton.mpr rfl)
    simp only [Spec.bounceBack, List.map_cons, List.map_nil, List.headI] at hc ⊢
    rw [hc]
  rw [this]
  rfl

/-- what the boundary kernel leaves in the array -/
theorem denseBoundary_bounceBack (hs : Spec.SparseSetup m gl inv) (links : List (Vec D × Fin m.stencil.Q))
    (hl : ∀ l ∈ links, Spec.IsBoundaryLink m l) (F : Vec D → Fin m.stencil.Q → V) (y : Vec D) (i : Fin m.stencil.Q) :
    Spec.denseBoundary [Spec.bounceBack m.stencil inv] links F y i =
      if (y + m.stencil.c i, inv i) ∈ links then F (y + m.stencil.c i) (inv i) else F y i := by
  classical
  have hinv : ∀ d, inv (inv d) = d := fun d => hs.valid (by rw [hs.inv, hs.inv, neg_neg])
  induction links generalizing F with
  | nil => simp [Spec.denseBoundary]
  | cons l links ih =>
    obtain ⟨x, d⟩ := l
    have hstep : Spec.denseBoundary [Spec.bounceBack m.stencil inv] ((x, d) :: links) F =
      Spec.denseBoundary [Spec.bounceBack m.stencil inv] links
        (Spec.denseAssign (Spec.bounceBack m.stencil inv) (x, d) F) := rfl
    rw [hstep, ih (fun l h => hl l (by simp [h])), denseAssign_bounceBack, denseAssign_bounceBack]
    obtain ⟨_, _, hxb, hxB⟩ := hl (x, d) (by simp)
    have htarget : (y = x + m.stencil.c d ∧ i = inv d) ↔ (y + m.stencil.c i, inv i) = (x, d) := by
      rw [Prod.mk.injEq]
      constructor
      · rintro ⟨rfl, rfl⟩
        rw [hs.inv, hinv]; simp
      · rintro ⟨rfl, rfl⟩
        rw [hs.inv, hinv]; simp
    by_cases h : (y + m.stencil.c i, inv i) ∈ links
    · rw [if_pos h, if_pos (List.mem_cons_of_mem _ h)]
      refine if_neg ?_
      rintro ⟨he, _⟩
      obtain ⟨hb, hf, _⟩ := hl _ (List.mem_cons_of_mem _ h)
      rw [← he] at hxB hxb
      exact hxB (hs.disjoint _ hb hf)
    · rw [if_neg h]
      by_cases ht : (y + m.stencil.c i, inv i) = (x, d)
      · rw [if_pos (htarget.mpr ht), if_pos (by rw [ht]; simp)]
        rw [Prod.mk.injEq] at ht
        rw [ht.1, ht.2]
      · rw [if_neg (mt htarget.mp ht), if_neg (by simp [ht, h])]

/-- C103. Bounce back as a boundary condition is the bounce back built into the index list: if the links are those of all
boundary cells (in any order), all cells accessed belong to the mapping, and boundary kernel and time step together give
every fluid cell what a time step gives if the boundary cells are declared as no-slip cells instead - for every flag array,
stencil, collision rule and state. -/
theorem C103_no_slip (hs : Spec.SparseSetup m gl inv) (links : List (Vec D × Fin m.stencil.Q))
    (hl : ∀ l, l ∈ links ↔ Spec.IsBoundaryLink m l) (collide : (Fin m.stencil.Q → V) → Fin m.stencil.Q → V)
    (F G G' : Vec D → Fin m.stencil.Q → V) :
    (∀ l ∈ links, ∀ a ∈ [Spec.bounceBack (V := V) m.stencil inv], ∀ r ∈ a.accesses,
      Spec.Active m (Spec.cell l.1 l.2 r)) ∧
    ∀ x, Spec.InBounds m.flags x → m.flags.flag x &&& m.fluid ≠ 0 →
      Spec.denseStep m gl inv collide (Spec.denseBoundary [Spec.bounceBack m.stencil inv] links F) G x =
        Spec.denseStep (Spec.asNoSlip m) gl inv collide F G' x := by
  classical
  constructor
  · intro l hmem a ha r hr
    rw [List.mem_singleton] at ha
    subst ha
    obtain ⟨h1, h2, h3, h4⟩ := (hl l).mp hmem
    rcases List.mem_cons.mp hr with rfl | hr
    · rw [cell_lhs m]; exact ⟨h3, Or.inr h4⟩
    · rw [cell_read m _ _ hr]; exact ⟨h1, Or.inl h2⟩
  · intro x hb hf
    have hval := denseBoundary_bounceBack m hs links (fun l h => (hl l).mp h) F
    have hfluid : ∀ y i, Spec.InBounds m.flags y → m.flags.flag y &&& m.fluid ≠ 0 →
        Spec.denseBoundary [Spec.bounceBack m.stencil inv] links F y i = F y i := by
      intro y i h1 h2
      rw [hval, if_neg]
      intro h
      obtain ⟨_, _, _, h4⟩ := (hl _).mp h
      simp only [hs.inv, add_neg_cancel_right] at h4
      exact h4 (hs.disjoint y h1 h2)
    unfold Spec.denseStep
    have hxf : Spec.InBounds (Spec.asNoSlip m).flags x ∧
      (Spec.asNoSlip m).flags.flag x &&& (Spec.asNoSlip m).fluid ≠ 0 := ⟨hb, hf⟩
    refine (if_pos ⟨hb, hf⟩).trans (Eq.trans ?_ (if_pos hxf).symm)
    congr 1
    funext d
    show (if m.stencil.c d = 0 then _ else _) = if m.stencil.c d = 0 then _ else _
    by_cases hd : m.stencil.c d = 0
    · rw [if_pos hd, if_pos hd, hfluid x d hb hf]
    · rw [if_neg hd, if_neg hd]
      have hyb : Spec.InBounds m.flags (x - m.stencil.c d) := by
        intro i
        have h1 := hs.inner x hb hf i
        have h2 := hs.reach d i
        have h3 := hs.ghost
        simp only [Pi.sub_apply]
        omega
      have hslot : ∀ m' : SparseMapper D, ∀ (d : Fin m'.stencil.Q) inv', Spec.slot m' gl inv' x d =
          if Spec.Active m' (x - m'.stencil.c d) then (x - m'.stencil.c d, d)
          else if Spec.Wall m' (x - m'.stencil.c d) then (x, inv' d) else (Spec.wrap m' gl (x - m'.stencil.c d), d) :=
        fun _ _ _ => rfl
      rw [hslot, hslot (Spec.asNoSlip m) d inv]
      have hA : Spec.Active (Spec.asNoSlip m) (x - (Spec.asNoSlip m).stencil.c d) ↔
          m.flags.flag (x - m.stencil.c d) &&& m.fluid ≠ 0 := by
        show (Spec.InBounds m.flags (x - m.stencil.c d) ∧ (m.flags.flag (x - m.stencil.c d) &&& m.fluid ≠ 0 ∨
          m.flags.flag (x - m.stencil.c d) &&& 0 ≠ 0)) ↔ _
        simp [hyb]
      have hW : Spec.Wall (Spec.asNoSlip m) (x - (Spec.asNoSlip m).stencil.c d) ↔
          Spec.Wall m (x - m.stencil.c d) ∨ m.flags.flag (x - m.stencil.c d) &&& m.boundary ≠ 0 := by
        show m.flags.flag (x - m.stencil.c d) &&& (m.noSlip ||| m.boundary) ≠ 0 ↔ _
        rw [Nat.and_or_distrib_left, Ne, Nat.or_eq_zero_iff]
        unfold Spec.Wall
        tauto
      by_cases hyf : m.flags.flag (x - m.stencil.c d) &&& m.fluid ≠ 0
      · have hA1 : Spec.Active m (x - m.stencil.c d) := ⟨hyb, Or.inl hyf⟩
        rw [if_pos hA1, if_pos (hA.mpr hyf)]
        exact hfluid _ _ hyb hyf
      · rw [if_neg (mt hA.mp hyf)]
        by_cases hyB : m.flags.flag (x - m.stencil.c d) &&& m.boundary ≠ 0
        · have hA2 : Spec.Active m (x - m.stencil.c d) := ⟨hyb, Or.inr hyB⟩
          rw [if_pos hA2, if_pos (hW.mpr (Or.inr hyB))]
          simp only [hval]
          rw [if_pos]
          · rw [sub_add_cancel]
          · rw [sub_add_cancel, hl]
            refine ⟨hb, hf, ?_, ?_⟩ <;> simp only [hs.inv, ← sub_eq_add_neg]
            · exact hyb
            · exact hyB
        · have hnA : ¬ Spec.Active m (x - m.stencil.c d) := fun h => h.2.elim hyf hyB
          rw [if_neg hnA]
          by_cases hyW : Spec.Wall m (x - m.stencil.c d)
          · rw [if_pos hyW, if_pos (hW.mpr (Or.inl hyW))]
            exact hfluid _ _ hb hf
          · rw [if_neg hyW, if_neg (fun h => (hW.mp h).elim hyW hyB)]
            show Spec.denseBoundary [Spec.bounceBack m.stencil inv] links F (Spec.wrap m gl (x - m.stencil.c d)) d =
              F (Spec.wrap m gl (x - m.stencil.c d)) d
            rw [hval]
            refine if_neg fun h => ?_
            obtain ⟨h1, h2, _, h4⟩ := (hl _).mp h
            simp only [hs.inv, add_neg_cancel_right] at h4
            have hw : Spec.wrap m gl (x - m.stencil.c d) = x - m.stencil.c d := by
              funext i
              have h5 := hs.inner _ h1 h2 i
              have h6 := hs.inner x hb hf i
              simp only [Pi.add_apply, Spec.wrap, Pi.sub_apply] at h5 ⊢
              have hdef := Int.emod_def (x i - m.stencil.c d i - gl) ((m.flags.shape i : ℤ) - 2 * gl)
              rw [hdef] at h5 ⊢
              have hq : (x i - m.stencil.c d i - gl) / ((m.flags.shape i : ℤ) - 2 * gl) = 0 := by
                rcases lt_trichotomy ((x i - m.stencil.c d i - gl) / ((m.flags.shape i : ℤ) - 2 * gl)) 0 with h | h | h
                · nlinarith
                · exact h
                · nlinarith
              rw [hq]
              ring
            rw [hw] at h4
            exact hyB h4

end noSlip

/-! ### Setter and getter -/

section setter

variable {K P : Type} [Field K] [CharZero K] [DecidableEq K] {mm : MomentMethod K P Q} {h : mm.relax.length = Q} {c : Fin Q → Fin D → K}
  {meqOf : Macro K D → P → K} {cq : Cqc K D} {i0 : Fin Q} {ii : Fin D → Fin Q}

theorem sparseWrite_spec (aos : Bool) {N k k' : ℕ} (hk : k < N) (hk' : k' < N) (v : Fin Q → V) (mem : ℕ → V) (i : Fin Q) :
    sparseWrite (listLayout aos N Q) k' v mem ((listLayout aos N Q).addr k i.val) =
      if k = k' then v i else mem ((listLayout aos N Q).addr k i.val) := by
  unfold sparseWrite
  split
  · rename_i h
    subst h
    exact foldl_update_mem (l := fun i : Fin Q => (listLayout aos N Q).addr k i.val)
      (fun a b h => (layout_inj aos hk hk h).2) v (List.finRange Q) mem i (List.mem_finRange i)
  · rename_i h
    apply foldl_update_not_mem (l := fun i : Fin Q => (listLayout aos N Q).addr k' i.val)
    intro j _ he
    exact h (layout_inj aos hk hk' he).1

/-- C103. Setting density and velocity on a list and reading them back gives the values set, in every cell, for both
layouts, every force model, storage format and compressibility. The conditions on the method are those of C21. -/
theorem C103_round_trip (aos : Bool) (H : Hydrodynamic mm h c meqOf cq i0 ii) (hw : mm.WellFormed) (csSq : K) (N : ℕ)
    (density : ℕ → K) (velocity : ℕ → Fin D → K) (href : ∀ k < N, cq.reference (density k) ≠ 0) (mem : ℕ → K) :
    ∃ mem', setSparse (listLayout aos N Q) mm meqOf cq density velocity (List.range N) mem = .ok mem' ∧
      ∀ k < N, (getterSparse (listLayout aos N Q) cq csSq c mem' k).density = density k ∧
        (getterSparse (listLayout aos N Q) cq csSq c mem' k).velocity = velocity k := by
  classical
  have hset : ∀ k, k < N → ∃ f, setter mm meqOf cq (density k) (velocity k) = .ok f ∧
      (cq.output csSq c f).density = density k ∧ (cq.output csSq c f).velocity = velocity k := by
    intro k hk
    obtain ⟨f, h1, h2, _, h3, _⟩ := C21_round_trip H hw (density k) csSq (velocity k) (href k hk)
    exact ⟨f, h1, h2, h3⟩
  have key : ∀ ks : List ℕ, (∀ k ∈ ks, k < N) → ks.Nodup → ∀ mem, ∃ mem',
      setSparse (listLayout aos N Q) mm meqOf cq density velocity ks mem = .ok mem' ∧
      (∀ k ∈ ks, ∃ f, setter mm meqOf cq (density k) (velocity k) = .ok f ∧
        ∀ i : Fin Q, mem' ((listLayout aos N Q).addr k i.val) = f i) ∧
      ∀ k < N, k ∉ ks → ∀ i : Fin Q, mem' ((listLayout aos N Q).addr k i.val) = mem ((listLayout aos N Q).addr k i.val) := by
    intro ks
    induction ks with
    | nil => intro _ _ mem; exact ⟨mem, rfl, by simp, fun _ _ _ _ => rfl⟩
    | cons k ks ih =>
      intro hlt hn mem
      rw [List.nodup_cons] at hn
      obtain ⟨f, hf, _⟩ := hset k (hlt k (by simp))
      obtain ⟨mem', h1, h2, h3⟩ := ih (fun j hj => hlt j (by simp [hj])) hn.2 (sparseWrite (listLayout aos N Q) k f mem)
      refine ⟨mem', ?_, ?_, ?_⟩
      · unfold setSparse at h1 ⊢
        rw [List.foldlM_cons]
        have : setterSparse mm meqOf cq (density k) (.value (velocity k)) = .ok f := hf
        rw [this]
        exact h1
      · intro j hj
        rcases List.mem_cons.mp hj with rfl | hj
        · refine ⟨f, hf, fun i => ?_⟩
          rw [h3 j (hlt j (by simp)) hn.1, sparseWrite_spec aos (hlt j (by simp)) (hlt j (by simp)), if_pos rfl]
        · exact h2 j hj
      · intro j hj hjn i
        rw [List.mem_cons, not_or] at hjn
        rw [h3 j hj hjn.2, sparseWrite_spec aos hj (hlt k (by simp)), if_neg hjn.1]
  obtain ⟨mem', h1, h2, _⟩ := key (List.range N) (fun k h => List.mem_range.mp h) List.nodup_range mem
  refine ⟨mem', h1, fun k hk => ?_⟩
  obtain ⟨f, hf, hv⟩ := h2 k (List.mem_range.mpr hk)
  obtain ⟨f', hf', hd, hu⟩ := hset k hk
  obtain rfl : f = f' := Except.ok.inj (hf.symm.trans hf')
  have : (fun i : Fin Q => mem' ((listLayout aos N Q).addr k i.val)) = f := funext hv
  unfold getterSparse
  rw [this]
  exact ⟨hd, hu⟩

/-- C103 for the methods with the discrete Maxwellian on the predefined stencils: any offered moments, rates, force model,
storage and layout. -/
theorem C103_predefined : ∀ e ∈ Tables.predefined, ∀ (o : MaxwellOptions K e.2.2) (cq : Cqc K (e.2.2.headD []).length),
    o.Valid cq → ∀ (aos : Bool) (csSq : K) (N : ℕ) (density : ℕ → K) (velocity : ℕ → Fin (e.2.2.headD []).length → K),
    (∀ k < N, cq.compressible = true → density k ≠ 0) → ∀ mem : ℕ → K,
    ∃ mem', setSparse (listLayout aos N e.2.2.length) (o.method cq) (o.meqOf cq.compressible) cq density velocity
        (List.range N) mem = .ok mem' ∧
      ∀ k < N, (getterSparse (listLayout aos N e.2.2.length) cq csSq (Spec.vel e.2.2 _) mem' k).density = density k ∧
        (getterSparse (listLayout aos N e.2.2.length) cq csSq (Spec.vel e.2.2 _) mem' k).velocity = velocity k := by
  intro e he o cq hv aos csSq N density velocity hne mem
  have hw := o.wellFormed he cq hv
  obtain ⟨i0, i, H, -⟩ := o.hydrodynamic he cq hv hw.1.1
  refine C103_round_trip aos H hw csSq N density velocity (fun k hk => ?_) mem
  unfold Cqc.reference
  cases hc : cq.compressible
  · simp [hv.rho0]
  · simpa using hne k hk hc

omit [CharZero K] in
/-- C103, disagreement: `velocity=True`, documented as reading the velocity from an array, raises `TypeError`, for every
method. -/
theorem C103_flag_argument (density : K) : setterSparse mm meqOf cq density .flag = .error .typeError := rfl

end setter

/-! ### Disagreements -/

/-- C103, disagreement: no boundary condition of the package can be used with the mapper, the call with four arguments
raises `TypeError`. -/
theorem C103_package_boundaries : callWith boundaryParameters mapperArguments = .error .typeError := by decide

/-- C103, disagreement: in two and three dimensions the index list of a boundary condition that reads additional data
(velocities or wall distances stored per link) is not created: the offset `(0,)` of the access to the additional data is
taken for the offset of a neighbour. -/
theorem C103_additional_data (m : SparseMapper D) (hD : 2 ≤ D) (eqs : List (LinkAssignment Q V)) (hQ : 0 < Q)
    (a : LinkAssignment Q V) (ha : a ∈ eqs) (hdata : a.data = true) (links : List (Vec D × Fin Q)) :
    createIndexArr m true eqs links = .error .indexError := by
  unfold createIndexArr
  rw [if_neg (by simp), if_pos]
  refine ⟨fun _ => [0], ?_, ⟨0, hQ⟩, by simp only [List.length_singleton]; omega⟩
  unfold neighborOffsets
  rw [List.mem_dedup, List.mem_flatMap]
  exact ⟨a, ha, by simp [LinkAssignment.offsets, hdata]⟩

/-- C103, disagreement: with a mapping that has not been used before, no index list is created. -/
theorem C103_first_use (m : SparseMapper D) (eqs : List (LinkAssignment Q V)) (hne : eqs ≠ [])
    (links : List (Vec D × Fin Q)) : createIndexArr m false eqs links = .error .attributeError := by
  unfold createIndexArr
  refine if_pos ?_
  obtain ⟨a, ha⟩ := List.exists_mem_of_ne_nil eqs hne
  have := mem_neighborOffsets ha (r := a.lhs) (by simp [LinkAssignment.accesses])
  cases h : neighborOffsets eqs with
  | nil => rw [h] at this; cases this
  | cons b l => rfl

/-! ### Example -/

/-- one-dimensional three-velocity stencil -/
private def line : Stencil 1 := Stencil.ofInts 1 [[0], [1], [-1]]

/-- no-slip, two fluid cells, a cell with flag 4 -/
private def exMap (boundary : ℕ) : SparseMapper 1 where
  stencil := line
  flags := ⟨fun _ => 4, fun x => [2, 1, 1, 4].getD (x 0).toNat 0⟩
  fluid := 1
  noSlip := 2
  boundary := boundary

private def exInv : Fin 3 → Fin 3 := ![0, 2, 1]

/-- the link from the second fluid cell to the boundary cell -/
private def exLinks : List (Vec 1 × Fin 3) := [(fun _ => 2, 1)]

/-- the hypotheses of `C103_no_slip` are met -/
example : Spec.SparseSetup (exMap 4) 1 exInv ∧ ∀ l, l ∈ exLinks ↔ Spec.IsBoundaryLink (exMap 4) l := by
  have hx : ∀ x : Vec 1, Spec.InBounds (exMap 4).flags x → x 0 = 0 ∨ x 0 = 1 ∨ x 0 = 2 ∨ x 0 = 3 := by
    intro x h
    have h0 : 0 ≤ x 0 ∧ x 0 < 4 := h 0
    omega
  refine ⟨⟨le_rfl, by decide, by decide +kernel, by decide +kernel, by decide +kernel, by decide, fun x hb hf i => ?_,
    fun x hb hf => ?_⟩, ?_⟩
  · obtain rfl : i = 0 := Subsingleton.elim _ _
    rcases hx x hb with h | h | h | h
    · simp [exMap, h] at hf
    · rw [h]; decide
    · rw [h]; decide
    · simp [exMap, h] at hf
  · rcases hx x hb with h | h | h | h <;> simp [exMap, h] at hf ⊢
  · rintro ⟨x, d⟩
    have hc' : ∀ (d : Fin 3) (i : Fin 1), (exMap 4).stencil.c d i = (![0, 1, -1] : Fin 3 → ℤ) d := by
      intro d i
      rw [Subsingleton.elim i 0]
      revert d
      decide +kernel
    have hc : ∀ d : Fin 3, (exMap 4).stencil.c d = (fun _ => ![0, 1, -1] d : Vec 1) := fun d => funext (hc' d)
    constructor
    · intro h
      simp only [exLinks, List.mem_singleton, Prod.mk.injEq] at h
      obtain ⟨rfl, rfl⟩ := h
      refine ⟨fun i => ⟨by simp, by simp [exMap]⟩, by decide, fun i => ?_, ?_⟩
      · rw [show (exMap 4).stencil.c (1 : Fin 3) = fun _ => 1 from by decide +kernel]; exact ⟨by simp, by simp [exMap]⟩
      · rw [show (exMap 4).stencil.c (1 : Fin 3) = fun _ => 1 from by decide +kernel]; decide
    · rintro ⟨h1, h2, h3, h4⟩
      have hxe : x = fun _ => x 0 := by funext i; rw [Subsingleton.elim i 0]
      simp only [exLinks, List.mem_singleton, Prod.mk.injEq]
      change Fin 3 at d
      simp only at h4 h3
      rw [hc d] at h3 h4
      rcases hx x h1 with h | h | h | h
      · simp [exMap, h] at h2
      · fin_cases d <;> simp [exMap, h] at h4
      · fin_cases d
        · simp [exMap, h] at h4
        · exact ⟨by rw [hxe, h], rfl⟩
        · simp [exMap, h] at h4
      · simp [exMap, h] at h2

/-- the index list of this link: neighbour cell number 2 behind the two fluid cells, own cell 1, and the kernel copies
population 1 of cell 1 (address 4) to population 2 of cell 2 (address 8) -/
example : (createIndexArr (exMap 4) true [Spec.bounceBack (V := ℕ) line exInv] exLinks).map
      (fun es => (List.range 9).map (sparseBoundary (listLayout false 3 3) [Spec.bounceBack line exInv] es fun a => a)) =
    .ok [0, 1, 2, 3, 4, 5, 6, 7, 4] := by decide +kernel

/-- C103, disagreement: if the boundary cells do not belong to the mapping, nothing is reported and the kernel overwrites a
population of a fluid cell. -/
theorem C103_silent :
    (createIndexArr (exMap 0) true [Spec.bounceBack (V := ℕ) line exInv] exLinks).map
      (fun es => (List.range 6).map (sparseBoundary (listLayout false 2 3) [Spec.bounceBack line exInv] es fun a => a)) =
    .ok [0, 1, 2, 3, 4, 3] ∧ (exMap 0).coords.length = 2 := by decide +kernel

end Lbm
