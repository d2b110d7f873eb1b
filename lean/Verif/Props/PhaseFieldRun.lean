import Verif.PhaseFieldRun
import Verif.Props.GhostLayers
import Verif.Props.PhaseKernels
import Verif.Props.CahnHilliardLb
import Verif.Props.HydroMethods

/-!
# Property C91: the multi-phase model conserves its order parameters, mass and momentum

`PhaseFieldStep` as a whole: chemical potentials, pressure tensor, force, flow and order parameters, with their kernels on arrays with ghost
layers.  The collisions enter with their conservation laws only; that the methods of the package meet them is `C91_methods`.
-/

namespace Lbm
namespace PhaseFieldRun

open GhostLayers PhaseKernels PhaseField

variable {K : Type} [Field K] {D Q n : ℕ} {size : Fin D → ℕ}

/-! ## Specification -/

namespace Spec

open GhostLayers.Spec

/-- The amount of a quantity on the grid -/
def amount [∀ i, NeZero (size i)] (f : Torus size → K) : K := ∑ x, f x

/-- The mass of the flow -/
def mass [∀ i, NeZero (size i)] (Q : ℕ) (T : Arr → Torus size → Values K) : K := amount fun x => ∑ q : Fin Q, T .hydro x q

/-- The momentum of the flow along an axis -/
def momentum [∀ i, NeZero (size i)] (c : Fin Q → Vec D) (a : Fin D) (T : Arr → Torus size → Values K) : K :=
  amount fun x => ∑ q : Fin Q, T .hydro x q * (c q a : K)

/-- The collision of the flow keeps mass and adds the force to the momentum. -/
structure FlowCollision (c : Fin Q → Vec D) (collide : (Fin D → K) → (Fin Q → K) → Fin Q → K) : Prop where
  mass : ∀ F f, ∑ q, collide F f q = ∑ q, f q
  momentum : ∀ F f a, ∑ q, collide F f q * (c q a : K) = ∑ q, f q * (c q a : K) + F a

/-- In every cell the order parameters are what the populations say: their sum, or the density of the flow. -/
def Consistent (n : ℕ) (densityOf : (Fin Q → K) → K) (density : Option ℕ) (fd : Bool) (T : Arr → Torus size → Values K) : Prop :=
  ∀ i < n, ∀ x, (density = some i → T (.phi i) x 0 = densityOf fun q => T .hydro x q) ∧
    (density ≠ some i → fd = false → T (.phi i) x 0 = ∑ q : Fin Q, T (.ch i) x q)

end Spec

/-! ## Kernels on a piece of the grid -/

theorem toTorus_add (y z : Vec D) : GhostLayers.Spec.toTorus size (y + z) = GhostLayers.Spec.toTorus size y + GhostLayers.Spec.toTorus size z := by
  funext i
  simp [GhostLayers.Spec.toTorus]

theorem toTorus_neighbor (y : Cell fun _ : Fin D => 0) (a : Fin D) (o : ℤ) :
    GhostLayers.Spec.toTorus size (neighbor y a o : Cell fun _ : Fin D => 0) = neighbor (GhostLayers.Spec.toTorus size y) a o := by
  unfold neighbor
  funext i
  by_cases h : i = a
  · subst h
    simp only [GhostLayers.Spec.toTorus, Pi.add_apply, Pi.single_eq_same]
    exact Int.cast_add (y i) o
  · simp only [GhostLayers.Spec.toTorus, Pi.add_apply, Pi.single_eq_of_ne h, add_zero]

/-- A field around a cell -/
def window (f : Cell size → K) (x : Cell size) : Cell (fun _ : Fin D => 0) → K := fun o => f (x + GhostLayers.Spec.toTorus size o)

omit [Field K] in
theorem window_zero (f : Cell size → K) (x : Cell size) : window f x 0 = f x := by
  unfold window
  congr 1
  funext i
  exact (congrArg (x i + ·) Int.cast_zero).trans (add_zero _)

omit [Field K] in
theorem window_neighbor (f : Cell size → K) (x : Cell size) (a : Fin D) (o : ℤ) : window f x (neighbor 0 a o) = f (neighbor x a o) := by
  unfold window
  rw [toTorus_neighbor]
  congr 1
  unfold neighbor
  rw [← add_assoc]
  congr 1
  funext i
  exact (congrArg (x i + ·) Int.cast_zero).trans (add_zero _)

theorem diff1_window (dx : K) (f : Cell size → K) (x : Cell size) (a : Fin D) : diff1 dx (window f x) a 0 = diff1 dx f a x := by
  unfold diff1
  rw [window_neighbor, window_neighbor]

theorem diff2_window (dx : K) (f : Cell size → K) (x : Cell size) (a : Fin D) : diff2 dx (window f x) a 0 = diff2 dx f a x := by
  unfold diff2
  rw [window_neighbor, window_neighbor, window_zero]

theorem lap_window (dx : K) (f : Cell size → K) (x : Cell size) : lap dx (window f x) 0 = lap dx f x := by
  unfold lap
  simp only [diff2_window]

theorem muKernel_window (dx : K) (F : ExpandedEnergy K n) (phi : Fin n → Cell size → K) (x : Cell size) (i : Fin n) :
    muKernel dx F (fun j => window (phi j) x) i 0 = muKernel dx F phi i x := by
  unfold muKernel muBulkAt muProductAt
  simp only [window_zero, lap_window]

theorem interfaceTermAt_window (dx : K) (f g : Cell size → K) (a b : Fin D) (x : Cell size) :
    interfaceTermAt dx (window f x) (window g x) a b 0 = interfaceTermAt dx f g a b x := by
  unfold interfaceTermAt
  simp only [diff1_window, diff2_window, window_zero]

theorem pressure_window (M : Model K D Q n) (phi : Fin n → Cell size → K) (x : Cell size) (a b : Fin D) :
    M.pressure (fun j => window (phi j) x) a b 0 = M.pressure phi a b x := by
  unfold Model.pressure pressureKernel
  cases extractGamma M.energy with
  | error e => rfl
  | ok gamma => simp only [interfaceTermAt_window, pressureBulkAt, muBulkAt, Option.getD_none, window_zero]

theorem forceUsingPressure_window (dx : K) (P : Fin D → Fin D → Cell size → K) (f : Fin D → K) (b : Fin D) (x : Cell size) :
    forceUsingPressure dx (fun a b => window (P a b) x) none (some f) b 0 = forceUsingPressure dx P none (some f) b x := by
  unfold forceUsingPressure
  simp only [diff1_window]

theorem cahnHilliardEq_window (dx dt m : K) (phi mu : Cell size → K) (u : Fin D → Cell size → K) (x : Cell size) :
    cahnHilliardEq dx dt m (window phi x) (window mu x) (fun a => window (u a) x) 0 = cahnHilliardEq dx dt m phi mu u x := by
  unfold cahnHilliardEq advection diffusion
  simp only [window_zero, window_neighbor]

/-! ## Locality -/

theorem zero_mem_box (r : ℕ) : (0 : Vec D) ∈ box D r := by
  rw [C90_box]
  simp [layers]

theorem neighbor_mem_box (a : Fin D) (o : ℤ) (ho : o.natAbs ≤ 1) : (neighbor (0 : Cell fun _ : Fin D => 0) a o : Vec D) ∈ box D 1 := by
  refine (C90_box D 1 _).2 ?_
  unfold layers
  refine Finset.sup_le fun i _ => ?_
  have : (neighbor (0 : Cell fun _ : Fin D => 0) a o) i = if i = a then o else (0 : ℤ) := by
    unfold neighbor
    by_cases h : i = a
    · subst h
      rw [if_pos rfl]
      simp only [Pi.add_apply, Pi.single_eq_same]
      exact zero_add o
    · simp only [Pi.add_apply, Pi.single_eq_of_ne h, if_neg h, add_zero]
      rfl
  rw [this]
  split_ifs <;> simp [ho]

section Local

variable {f f' g g' : Cell (fun _ : Fin D => 0) → K}

/-- Two fields have the same values up to one cell away. -/
def Agree (f f' : Cell (fun _ : Fin D => 0) → K) : Prop := ∀ o : Vec D, o ∈ box D 1 → f o = f' o

omit [Field K] in
theorem Agree.zero (h : Agree f f') : f 0 = f' 0 := h _ (zero_mem_box 1)

omit [Field K] in
theorem Agree.pos (h : Agree f f') (a : Fin D) : f (neighbor 0 a 1) = f' (neighbor 0 a 1) := h _ (neighbor_mem_box a 1 (by decide))

omit [Field K] in
theorem Agree.neg (h : Agree f f') (a : Fin D) : f (neighbor 0 a (-1)) = f' (neighbor 0 a (-1)) := h _ (neighbor_mem_box a (-1) (by decide))

theorem Agree.diff1 (h : Agree f f') (dx : K) (a : Fin D) : diff1 dx f a 0 = diff1 dx f' a 0 := by
  unfold PhaseKernels.diff1
  rw [h.pos, h.neg]

theorem Agree.diff2 (h : Agree f f') (dx : K) (a : Fin D) : diff2 dx f a 0 = diff2 dx f' a 0 := by
  unfold PhaseKernels.diff2
  rw [h.pos, h.neg, h.zero]

theorem Agree.lap (h : Agree f f') (dx : K) : lap dx f 0 = lap dx f' 0 := by
  unfold PhaseKernels.lap
  simp only [h.diff2]

theorem Agree.muKernel {phi phi' : Fin n → Cell (fun _ : Fin D => 0) → K} (h : ∀ i, Agree (phi i) (phi' i)) (dx : K) (F : ExpandedEnergy K n)
    (i : Fin n) : muKernel dx F phi i 0 = muKernel dx F phi' i 0 := by
  unfold PhaseKernels.muKernel muBulkAt muProductAt
  simp only [(h _).zero, (h _).lap]

theorem Agree.pressure {phi phi' : Fin n → Cell (fun _ : Fin D => 0) → K} (h : ∀ i, Agree (phi i) (phi' i)) (M : Model K D Q n) (a b : Fin D) :
    M.pressure phi a b 0 = M.pressure phi' a b 0 := by
  unfold Model.pressure pressureKernel
  cases extractGamma M.energy with
  | error e => rfl
  | ok gamma => simp only [interfaceTermAt, (h _).diff1, (h _).diff2, pressureBulkAt, muBulkAt, Option.getD_none, (h _).zero]

end Local

variable (M : Model K D Q n)

omit [Field K] in
theorem agree_around {w w' : Arr → Vec D → Values K} {a : Arr} (h : ∀ o ∈ box D 1, w a o = w' a o) (k : ℕ) :
    Agree (Model.around w a k) (Model.around w' a k) := fun o ho => congrFun (h o ho) k

theorem streamed_congr (hc : ∀ q, layers (M.directions q) ≤ 1) {w w' : Arr → Vec D → Values K} {a : Arr} (h : ∀ o ∈ box D 1, w a o = w' a o) :
    M.streamed w a = M.streamed w' a := by
  funext q
  unfold Model.streamed
  rw [h]
  rw [C90_box]
  refine le_trans (le_of_eq ?_) (hc q)
  simp [layers]

theorem mem_around {r : ℕ} {l : List Arr} {a : Arr} {o : Vec D} : (a, o) ∈ GhostLayers.around (D := D) r l ↔ a ∈ l ∧ o ∈ box D r := by
  simp [GhostLayers.around]

theorem mem_centre {l : List Arr} {a : Arr} {o : Vec D} : (a, o) ∈ centre (D := D) l ↔ a ∈ l ∧ o = 0 := by
  simp [centre, eq_comm]

theorem local_muPressure : GhostLayers.Spec.Local (⟨GhostLayers.around 1 (all n .phi), all n .mu ++ [.pressure], none, M.fns .muPressure⟩ :
    Kernel Arr (Values K) D) := by
  intro w w' h a ha
  have hw : ∀ i : Fin n, Agree (Model.phiAround w i) (Model.phiAround w' i) := fun i => agree_around
    (fun o ho => h (.phi i, o) (mem_around.2 ⟨mem_all.2 ⟨i, i.2, rfl⟩, ho⟩)) 0
  rcases List.mem_append.1 ha with h | h
  · obtain ⟨i, hi, rfl⟩ := mem_all.1 h
    funext k
    simp only [Model.fns, dif_pos hi]
    exact Agree.muKernel hw _ _ _
  · rw [List.mem_singleton] at h
    subst h
    funext lin
    simp only [Model.fns, store, Agree.pressure hw]

theorem local_force : GhostLayers.Spec.Local (⟨GhostLayers.around 1 [.pressure] ++ centre (all n .phi), [.force], none, M.fns .force⟩ :
    Kernel Arr (Values K) D) := by
  intro w w' h a ha
  rw [List.mem_singleton] at ha
  subst ha
  have h1 : ∀ a b, Agree (fun o => (load (fun lin o => some (Model.around w .pressure lin o)) a b o).getD 0)
      (fun o => (load (fun lin o => some (Model.around w' .pressure lin o)) a b o).getD 0) := by
    intro a b o ho
    unfold load Model.around
    have := h (.pressure, o) (List.mem_append_left _ (mem_around.2 ⟨by simp, ho⟩))
    simp only at this
    simp only [this]
  have h2 : ∀ i : Fin n, w (.phi i) 0 = w' (.phi i) 0 := fun i =>
    h (.phi i, 0) (List.mem_append_right _ (mem_centre.2 ⟨mem_all.2 ⟨i, i.2, rfl⟩, rfl⟩))
  simp only [Model.fns, forceUsingPressure, h2, (h1 _ _).diff1]

theorem local_collide : GhostLayers.Spec.Local (⟨centre [.hydro, .force], [.hydro], none, M.fns .collide⟩ : Kernel Arr (Values K) D) := by
  intro w w' h a ha
  rw [List.mem_singleton] at ha
  subst ha
  have h1 := h (.hydro, 0) (mem_centre.2 ⟨by simp, rfl⟩)
  have h2 := h (.force, 0) (mem_centre.2 ⟨by simp, rfl⟩)
  simp only at h1 h2
  simp only [Model.fns, h1, h2]

theorem local_stream (hc : ∀ q, layers (M.directions q) ≤ 1) (density : Option ℕ) :
    GhostLayers.Spec.Local (⟨GhostLayers.around 1 [.hydro] ++ centre [.force], [.hydroTmp, .velocity] ++ (density.map Arr.phi).toList, none,
      M.fns .stream⟩ : Kernel Arr (Values K) D) := by
  intro w w' h a ha
  have h1 := streamed_congr M hc (a := .hydro) fun o ho => h (.hydro, o) (List.mem_append_left _ (mem_around.2 ⟨by simp, ho⟩))
  have h2 := h (.force, 0) (List.mem_append_right _ (mem_centre.2 ⟨by simp, rfl⟩))
  simp only at h2
  simp only [List.cons_append, List.nil_append, List.mem_cons, Option.mem_toList, Option.map_eq_some_iff] at ha
  rcases ha with rfl | rfl | ⟨i, _, rfl⟩
  · simp only [Model.fns, h1]
  · simp only [Model.fns, h1, h2]
  · simp only [Model.fns, h1]

theorem local_ch (hc : ∀ q, layers (M.directions q) ≤ 1) (i : ℕ) :
    GhostLayers.Spec.Local (⟨GhostLayers.around 1 [.ch i] ++ centre [.mu i, .velocity], [.chTmp i, .phi i], none, M.fns (.chStreamCollide i)⟩ :
      Kernel Arr (Values K) D) := by
  intro w w' h a ha
  have h1 := streamed_congr M hc (a := .ch i) fun o ho => h (.ch i, o) (List.mem_append_left _ (mem_around.2 ⟨by simp, ho⟩))
  have h2 := h (.mu i, 0) (List.mem_append_right _ (mem_centre.2 ⟨by simp, rfl⟩))
  have h3 := h (.velocity, 0) (List.mem_append_right _ (mem_centre.2 ⟨by simp, rfl⟩))
  simp only at h2 h3
  simp only [List.mem_cons, List.not_mem_nil, or_false] at ha
  rcases ha with rfl | rfl <;> simp only [Model.fns, h1, h2, h3]

theorem local_fd : GhostLayers.Spec.Local (⟨GhostLayers.around 1 (all n .phi ++ [.velocity] ++ all n .mu), all n .phiTmp, none, M.fns .fd⟩ :
    Kernel Arr (Values K) D) := by
  intro w w' h a ha
  obtain ⟨i, hi, rfl⟩ := mem_all.1 ha
  have hp := agree_around (a := .phi i) (fun o ho => h (.phi i, o) (mem_around.2 ⟨by simp [mem_all, hi], ho⟩)) 0
  have hm := agree_around (a := .mu i) (fun o ho => h (.mu i, o) (mem_around.2 ⟨by simp [mem_all, hi], ho⟩)) 0
  have hu := fun a : Fin D => agree_around (a := .velocity) (fun o ho => h (.velocity, o) (mem_around.2 ⟨by simp, ho⟩)) a
  funext k
  simp only [Model.fns, cahnHilliardEq, advection, diffusion, hp.zero, hp.pos, hp.neg, hm.zero, hm.pos, hm.neg, (hu _).zero, (hu _).pos, (hu _).neg]

theorem allLocal (hc : ∀ q, layers (M.directions q) ≤ 1) (density : Option ℕ) (runHydro fd : Bool) (l : List (Op Arr (Values K) D))
    (hl : phaseFieldStep M.fns n density runHydro fd = .ok l) : GhostLayers.Spec.AllLocal l := by
  unfold phaseFieldStep at hl
  by_cases hr : (fd && density.isSome) = true
  · rw [if_pos hr] at hl
    cases hl
  rw [if_neg hr] at hl
  cases hl
  intro k hk
  rcases List.mem_append.1 hk with hk | hk
  · rcases List.mem_append.1 hk with hk | hk
    · simp only [List.mem_cons, List.not_mem_nil, or_false, reduceCtorEq, false_or, mk, Op.kernel.injEq] at hk
      rcases hk with rfl | rfl
      · exact local_muPressure M
      · exact local_force M
    · cases runHydro
      · simp at hk
      · simp only [if_true, hydroStep, List.mem_cons, List.not_mem_nil, or_false, reduceCtorEq, false_or, mk, Op.kernel.injEq] at hk
        rcases hk with rfl | rfl
        · exact local_collide M
        · exact local_stream M hc density
  · cases fd
    · simp only [Bool.false_eq_true, if_false, List.mem_flatMap] at hk
      obtain ⟨i, -, hk⟩ := hk
      simp only [chStep, List.mem_cons, List.not_mem_nil, or_false, reduceCtorEq, false_or, mk, Op.kernel.injEq] at hk
      subst hk
      exact local_ch M hc i
    · simp only [if_true, fdStep, List.mem_cons, List.mem_map, reduceCtorEq, false_or, and_false, exists_false, or_false, mk, Op.kernel.injEq] at hk
      subst hk
      exact local_fd M

/-! ## Parts of a time step -/

section Steps

variable (T : Arr → GhostLayers.Spec.Torus size → Values K)

open GhostLayers.Spec (step op toTorus)

omit [Field K] in
theorem step_append (l l' : List (Op Arr (Values K) D)) : step (l ++ l') T = step l' (step l T) := List.foldl_append

omit [Field K] in
theorem op_mk_mem (f : Krn → (Arr → Vec D → Values K) → Arr → Values K) (name : Krn) (reads : List (Arr × Vec D)) (writes : List Arr) {a : Arr}
    (ha : a ∈ writes) (x : Cell size) : op T (mk f name reads writes) a x = f name (fun b o => T b (x + toTorus size o)) a := if_pos ha

omit [Field K] in
theorem op_mk_not_mem (f : Krn → (Arr → Vec D → Values K) → Arr → Values K) (name : Krn) (reads : List (Arr × Vec D)) (writes : List Arr) {a : Arr}
    (ha : a ∉ writes) : op T (mk f name reads writes) a = T a := funext fun _ => if_neg ha

theorem add_zero_torus (x : Cell size) : x + toTorus size (0 : Vec D) = x := by
  funext i
  simp [toTorus]

theorem fns_pressure (w : Arr → Vec D → Values K) :
    M.fns .muPressure w .pressure = fun lin => (store (M.pressure (Model.phiAround w)) lin 0).getD 0 := rfl

theorem fns_force (w : Arr → Vec D → Values K) : M.fns .force w .force = Model.toValues fun b =>
    forceUsingPressure M.dx (fun a b o => (load (fun lin o => some (Model.around w .pressure lin o)) a b o).getD 0) none
      (some (M.extraForce fun i => w (.phi i) 0 0)) b 0 := rfl

theorem fns_collide (w : Arr → Vec D → Values K) :
    M.fns .collide w .hydro = Model.toValues (M.collide (fun a => w .force 0 a) fun q => w .hydro 0 q) := rfl

theorem fns_stream (w : Arr → Vec D → Values K) : M.fns .stream w .hydroTmp = Model.toValues (M.streamed w .hydro) := rfl

theorem fns_density (w : Arr → Vec D → Values K) (i : ℕ) : M.fns .stream w (.phi i) = fun _ => M.density (M.streamed w .hydro) := rfl

theorem fns_fd (w : Arr → Vec D → Values K) (i : ℕ) : M.fns .fd w (.phiTmp i) = fun _ =>
    cahnHilliardEq M.dx M.dt 1 (Model.around w (.phi i) 0) (Model.around w (.mu i) 0) (fun a => Model.around w .velocity a) 0 := rfl

theorem toValues_fin {m : ℕ} (f : Fin m → K) (k : Fin m) : Model.toValues f k = f k := by
  simp [Model.toValues]

/-- The parts before the flow -/
noncomputable def prelude : List (Op Arr (Values K) D) :=
  [.sync (all n .phi),
   mk M.fns .muPressure (GhostLayers.around 1 (all n .phi)) (all n .mu ++ [.pressure]),
   .sync [.pressure],
   mk M.fns .force (GhostLayers.around 1 [.pressure] ++ centre (all n .phi)) [.force]]

theorem prelude_other (a : Arr) (h1 : ∀ i, a ≠ .mu i) (h2 : a ≠ .pressure) (h3 : a ≠ .force) : step (prelude M) T a = T a := by
  have h : a ∉ all n .mu := fun h => by
    obtain ⟨i, -, rfl⟩ := mem_all.1 h
    exact h1 i rfl
  simp [step, prelude, op, mk, h, h2, h3]

omit [Field K] in
theorem store_window (P : Fin D → Fin D → Cell (fun _ : Fin D => 0) → K) (P' : Fin D → Fin D → Cell size → K) (x : Cell size)
    (h : ∀ a b, P a b 0 = P' a b x) (lin : ℕ) : store P lin 0 = store P' lin x := by
  unfold store
  simp only [h]

theorem load_getD (P : Fin D → Fin D → Cell size → K) (hP : ∀ a b, P a b = P b a) (a b : Fin D) (x : Cell size) :
    (load (fun lin x => some ((store P lin x).getD 0)) a b x).getD 0 = P a b x := by
  have h := C88_store P hP a b x
  unfold load at h ⊢
  cases hl : (symmetricLinearization D).lookup (if a < b then (a.1, b.1) else (b.1, a.1)) with
  | none => rw [hl] at h; cases h
  | some lin =>
    rw [hl, Option.bind_some] at h
    simp [h]

theorem pressure_symmetric (phi : Fin n → Cell size → K) (a b : Fin D) : M.pressure phi a b = M.pressure phi b a := by
  funext x
  unfold Model.pressure
  cases h : pressureKernel M.dx M.energy phi none true with
  | error e => rfl
  | ok P => exact congrFun (C88_pressure_symmetric _ _ _ _ _ _ h a b) x

/-- The order parameters on the grid -/
def phiOf : Fin n → Cell size → K := fun i x => T (.phi i) x 0

theorem prelude_force (x : Cell size) (b : Fin D) : step (prelude M) T .force x b =
    forceUsingPressure M.dx (M.pressure (phiOf T)) none (some (M.extraForce fun i => T (.phi i) x 0)) b x := by
  obtain ⟨T1, hT1⟩ : ∃ T1 : Arr → Cell size → Values K, T1 = op T (mk M.fns .muPressure (GhostLayers.around 1 (all n .phi)) (all n .mu ++ [.pressure])) :=
    ⟨_, rfl⟩
  have hT : step (prelude M) T .force x = M.fns .force (fun a o => T1 a (x + toTorus size o)) .force := by
    rw [hT1]
    rfl
  have hp : ∀ y, T1 .pressure y = fun lin => (store (M.pressure (phiOf T)) lin y).getD 0 := by
    intro y
    rw [hT1, op_mk_mem _ _ _ _ _ (by simp), fns_pressure]
    funext lin
    rw [store_window _ (M.pressure (phiOf T)) y]
    intro a b
    exact pressure_window M (phiOf T) y a b
  have hphi : ∀ i : Fin n, T1 (.phi i) = T (.phi i) := fun i => by
    rw [hT1, op_mk_not_mem]
    rw [List.mem_append, mem_all]
    rintro (⟨j, -, h⟩ | h)
    · cases h
    · simp at h
  have hP : (fun a b o => (load (fun lin o => some (Model.around (fun a o => T1 a (x + toTorus size o)) .pressure lin o)) a b o).getD 0) =
      fun a b => window (M.pressure (phiOf T) a b) x := by
    funext a b o
    have := load_getD (M.pressure (phiOf T)) (pressure_symmetric M (phiOf T)) a b (x + toTorus size o)
    unfold window
    rw [← this]
    unfold load Model.around
    simp only [hp]
  rw [hT, fns_force, toValues_fin, hP, forceUsingPressure_window]
  simp only [hphi, add_zero_torus]

/-- What the flow step leaves alone -/
theorem hydro_other (density : Option ℕ) (a : Arr) (h1 : a ≠ .hydro) (h2 : a ≠ .hydroTmp) (h3 : a ≠ .velocity) (h4 : ∀ i, density = some i → a ≠ .phi i) :
    step (hydroStep M.fns density) T a = T a := by
  have : a ∉ [Arr.hydroTmp, .velocity] ++ (density.map Arr.phi).toList := by
    simp only [List.cons_append, List.nil_append, List.mem_cons, Option.mem_toList, Option.map_eq_some_iff]
    rintro (h | h | ⟨i, hi, h⟩)
    · exact h2 h
    · exact h3 h
    · exact h4 i hi h.symm
  have e : step (hydroStep M.fns density) T a = op (op T (mk M.fns .collide (centre [.hydro, .force]) [.hydro]))
      (mk M.fns .stream (GhostLayers.around 1 [.hydro] ++ centre [.force]) ([.hydroTmp, .velocity] ++ (density.map Arr.phi).toList)) a := by
    simp only [step, hydroStep, List.foldl_cons, List.foldl_nil]
    exact (if_neg h1).trans (if_neg h2)
  rw [e, op_mk_not_mem _ _ _ _ _ this, op_mk_not_mem _ _ _ _ _ (by simp [h1])]

theorem hydro_pdfs (density : Option ℕ) (x : Cell size) (q : Fin Q) : step (hydroStep M.fns density) T .hydro x q =
    M.collide (fun a => T .force (x + toTorus size (-M.directions q)) a) (fun q' => T .hydro (x + toTorus size (-M.directions q)) q') q := by
  have e : step (hydroStep M.fns density) T .hydro = op (op T (mk M.fns .collide (centre [.hydro, .force]) [.hydro]))
      (mk M.fns .stream (GhostLayers.around 1 [.hydro] ++ centre [.force]) ([.hydroTmp, .velocity] ++ (density.map Arr.phi).toList)) .hydroTmp := rfl
  rw [e, op_mk_mem _ _ _ _ _ (by simp), fns_stream, toValues_fin]
  unfold Model.streamed
  beta_reduce
  rw [op_mk_mem _ _ _ _ _ (by simp), fns_collide, toValues_fin]
  simp only [add_zero_torus]

theorem hydro_density (i : ℕ) (x : Cell size) : step (hydroStep M.fns (some i)) T (.phi i) x 0 =
    M.density fun q => step (hydroStep M.fns (some i)) T .hydro x q := by
  have e : step (hydroStep M.fns (some i)) T (.phi i) = op (op T (mk M.fns .collide (centre [.hydro, .force]) [.hydro]))
      (mk M.fns .stream (GhostLayers.around 1 [.hydro] ++ centre [.force]) ([.hydroTmp, .velocity] ++ ((some i).map Arr.phi).toList)) (.phi i) := rfl
  rw [e, op_mk_mem _ _ _ _ _ (by simp), fns_density]
  refine congrArg M.density ?_
  funext q
  rw [hydro_pdfs]
  unfold Model.streamed
  beta_reduce
  rw [op_mk_mem _ _ _ _ _ (by simp), fns_collide, toValues_fin]
  simp only [add_zero_torus]

/-- What the step of one order parameter does -/
theorem ch_other (i : ℕ) (a : Arr) (h1 : a ≠ .ch i) (h2 : a ≠ .chTmp i) (h3 : a ≠ .phi i) : step (chStep M.fns i) T a = T a := by
  simp [step, chStep, op, mk, swapArrays, h1, h2, h3]

theorem ch_pdfs (i : ℕ) (x : Cell size) (q : Fin Q) : step (chStep M.fns i) T (.ch i) x q =
    M.chCollide i (T (.mu i) x 0) (fun a => T .velocity x a) (fun q' => T (.ch i) (x + toTorus size (-M.directions q')) q') q := by
  have hz : ∀ x : Cell size, x + toTorus size (0 : Vec D) = x := fun x => by
    funext i
    simp [toTorus]
  simp [step, chStep, op, mk, swapArrays, Model.fns, toValues_fin, Model.streamed, hz]
  rfl

theorem ch_phi (i : ℕ) (x : Cell size) : step (chStep M.fns i) T (.phi i) x 0 =
    ∑ q : Fin Q, T (.ch i) (x + toTorus size (-M.directions q)) q := by
  simp [step, chStep, op, mk, swapArrays, Model.fns, Model.streamed]

omit [Field K] in
theorem swaps (l : List ℕ) (hl : l.Nodup) : (∀ i, step (l.map fun i => (.swap (.phi i) (.phiTmp i) : Op Arr (Values K) D)) T (.phi i) =
      if i ∈ l then T (.phiTmp i) else T (.phi i)) ∧
    ∀ a, (∀ i, a ≠ .phi i) → (∀ i, a ≠ .phiTmp i) → step (l.map fun i => (.swap (.phi i) (.phiTmp i) : Op Arr (Values K) D)) T a = T a := by
  induction l generalizing T with
  | nil => exact ⟨fun i => by simp [step], fun a _ _ => rfl⟩
  | cons j l ih =>
    rw [List.nodup_cons] at hl
    obtain ⟨h1, h2⟩ := ih (swapArrays (.phi j) (.phiTmp j) T) hl.2
    constructor
    · intro i
      refine (h1 i).trans ?_
      by_cases hij : i = j
      · subst hij
        rw [if_neg hl.1, if_pos (by simp)]
        simp [swapArrays]
      · simp only [List.mem_cons, hij, false_or]
        simp [swapArrays, hij]
    · intro a ha hb
      refine (h2 a ha hb).trans ?_
      simp [swapArrays, ha, hb]

theorem fd_other (a : Arr) (h1 : ∀ i, a ≠ .phi i) (h2 : ∀ i, a ≠ .phiTmp i) : step (fdStep M.fns n) T a = T a := by
  refine ((swaps _ _ List.nodup_range).2 a h1 h2).trans ?_
  rw [op_mk_not_mem]
  · rfl
  · rw [mem_all]
    rintro ⟨i, -, rfl⟩
    exact h2 i rfl

theorem fd_phi (i : ℕ) (hi : i < n) (x : Cell size) : step (fdStep M.fns n) T (.phi i) x 0 =
    cahnHilliardEq M.dx M.dt 1 (fun x => T (.phi i) x 0) (fun x => T (.mu i) x 0) (fun a x => T .velocity x a) x := by
  have := (swaps (op (op T (.sync (all n .phi ++ [.velocity] ++ all n .mu)))
    (mk M.fns .fd (GhostLayers.around 1 (all n .phi ++ [.velocity] ++ all n .mu)) (all n .phiTmp))) _ (List.nodup_range (n := n))).1 i
  refine (congrFun (congrFun this x) 0).trans ?_
  rw [if_pos (List.mem_range.2 hi), op_mk_mem _ _ _ _ _ (mem_all.2 ⟨i, hi, rfl⟩), fns_fd]
  exact cahnHilliardEq_window M.dx M.dt 1 (fun x => T (.phi i) x 0) (fun x => T (.mu i) x 0) (fun a x => T .velocity x a) x

end Steps

/-! ## Conservation -/

section Conservation

variable [∀ i, NeZero (size i)] (T : Arr → GhostLayers.Spec.Torus size → Values K)

open GhostLayers.Spec (step op toTorus)

/-- Moving populations along their directions does not change the total. -/
theorem sum_moved (c : Fin Q → Vec D) (f : Fin Q → Cell size → K) : ∑ x, ∑ q, f q (x + toTorus size (-c q)) = ∑ x, ∑ q, f q x := by
  rw [Finset.sum_comm, Finset.sum_comm (f := fun x q => f q x)]
  exact Finset.sum_congr rfl fun q _ => Equiv.sum_comp (Equiv.addRight (toTorus size (-c q) : Cell size)) (f q)

theorem hydro_mass (hf : Spec.FlowCollision M.directions M.collide) (density : Option ℕ) :
    Spec.mass Q (step (hydroStep M.fns density) T) = Spec.mass Q T := by
  unfold Spec.mass Spec.amount
  simp only [hydro_pdfs]
  rw [sum_moved M.directions fun q x => M.collide (fun a => T .force x a) (fun q' => T .hydro x q') q]
  exact Finset.sum_congr rfl fun x _ => hf.mass _ _

theorem hydro_momentum (hf : Spec.FlowCollision M.directions M.collide) (density : Option ℕ) (a : Fin D) :
    Spec.momentum M.directions a (step (hydroStep M.fns density) T) = Spec.momentum M.directions a T + Spec.amount fun x => T .force x a := by
  unfold Spec.momentum Spec.amount
  simp only [hydro_pdfs]
  rw [sum_moved M.directions fun q x => M.collide (fun a => T .force x a) (fun q' => T .hydro x q') q * (M.directions q a : K),
    ← Finset.sum_add_distrib]
  exact Finset.sum_congr rfl fun x _ => hf.momentum _ _ a

theorem prelude_total [CharZero K] (a : Fin D) : (Spec.amount fun x => step (prelude M) T .force x a) =
    (M.extra.map fun e => e.2 a * Spec.amount fun x => T (.phi e.1) x 0).sum := by
  unfold Spec.amount
  have h := C88_pressure_momentum M.dx (M.pressure (phiOf T)) none a
  unfold PhaseKernels.Spec.total at h
  simp only [prelude_force, C88_extra_force, Finset.sum_add_distrib, h, zero_add, Model.extraForce]
  induction M.extra with
  | nil => simp
  | cons e l ih => simp only [List.map_cons, List.sum_cons, Finset.sum_add_distrib, ih, Finset.mul_sum]

/-- The steps of several order parameters -/
theorem ch_steps (hch : ∀ i mu v f, ∑ q, M.chCollide i mu v f q = ∑ q, f q) (l : List ℕ) (hl : l.Nodup) :
    (∀ a, (∀ i, a ≠ .ch i) → (∀ i, a ≠ .chTmp i) → (∀ i, a ≠ .phi i) → step (l.flatMap (chStep M.fns)) T a = T a) ∧
    (∀ i ∉ l, step (l.flatMap (chStep M.fns)) T (.phi i) = T (.phi i) ∧ step (l.flatMap (chStep M.fns)) T (.ch i) = T (.ch i)) ∧
    ∀ i ∈ l, (∀ x, step (l.flatMap (chStep M.fns)) T (.phi i) x 0 = ∑ q : Fin Q, step (l.flatMap (chStep M.fns)) T (.ch i) x q) ∧
      (Spec.amount fun x => step (l.flatMap (chStep M.fns)) T (.phi i) x 0) = Spec.amount fun x => ∑ q : Fin Q, T (.ch i) x q := by
  induction l generalizing T with
  | nil => exact ⟨fun a _ _ _ => rfl, fun i _ => ⟨rfl, rfl⟩, fun i h => by simp at h⟩
  | cons j l ih =>
    rw [List.nodup_cons] at hl
    rw [List.flatMap_cons, step_append]
    obtain ⟨h1, h2, h3⟩ := ih (step (chStep M.fns j) T) hl.2
    refine ⟨fun a ha hb hc => (h1 a ha hb hc).trans (ch_other M T j a (ha j) (hb j) (hc j)), fun i hi => ?_, fun i hi => ?_⟩
    · rw [List.mem_cons, not_or] at hi
      rw [(h2 i hi.2).1, (h2 i hi.2).2]
      exact ⟨ch_other M T j _ (by simp) (by simp) (by simp [hi.1]), ch_other M T j _ (by simp [hi.1]) (by simp) (by simp)⟩
    · by_cases hij : i = j
      · subst hij
        rw [(h2 i hl.1).1, (h2 i hl.1).2]
        constructor
        · intro x
          rw [ch_phi]
          simp only [ch_pdfs, hch]
        · unfold Spec.amount
          simp only [ch_phi]
          exact sum_moved M.directions fun q x => T (.ch i) x q
      · have hi : i ∈ l := by simpa [hij] using hi
        refine ⟨(h3 i hi).1, (h3 i hi).2.trans ?_⟩
        rw [ch_other M T j _ (by simp [hij]) (by simp) (by simp)]

theorem fd_amount (i : ℕ) (hi : i < n) : (Spec.amount fun x => step (fdStep M.fns n) T (.phi i) x 0) = Spec.amount fun x => T (.phi i) x 0 := by
  unfold Spec.amount
  simp only [fd_phi M T i hi]
  exact C88_mass _ _ _ _ _ _

/-- What the extra forces add in a time step -/
def Spec.pull (extra : List (Fin n × (Fin D → K))) (T : Arr → GhostLayers.Spec.Torus size → Values K) (a : Fin D) : K :=
  (extra.map fun e => e.2 a * Spec.amount fun x => T (.phi e.1) x 0).sum

theorem program_eq {density : Option ℕ} {runHydro fd : Bool} {l : List (Op Arr (Values K) D)} (hl : M.program density runHydro fd = .ok l) :
    phaseFieldStep M.fns n density runHydro fd = .ok l ∧ (fd = true → density = none) ∧
    l = prelude M ++ (if runHydro then hydroStep M.fns density else []) ++
      (if fd then fdStep M.fns n else ((List.range n).filter fun i => decide (some i ≠ density)).flatMap (chStep M.fns)) := by
  unfold Model.program at hl
  cases he : extractGamma M.energy with
  | error e => rw [he] at hl; cases hl
  | ok gamma =>
    rw [he] at hl
    refine ⟨hl, ?_⟩
    simp only at hl
    unfold phaseFieldStep at hl
    by_cases hr : (fd && density.isSome) = true
    · rw [if_pos hr] at hl
      cases hl
    · rw [if_neg hr] at hl
      cases hl
      refine ⟨fun h => ?_, rfl⟩
      subst h
      simpa using hr

theorem mass_congr {T T' : Arr → GhostLayers.Spec.Torus size → Values K} (h : T .hydro = T' .hydro) : Spec.mass Q T = Spec.mass Q T' := by
  unfold Spec.mass
  rw [h]

theorem momentum_congr {T T' : Arr → GhostLayers.Spec.Torus size → Values K} (h : T .hydro = T' .hydro) (c : Fin Q → Vec D) (a : Fin D) :
    Spec.momentum c a T = Spec.momentum c a T' := by
  unfold Spec.momentum
  rw [h]

theorem density_amount {d : K} (hd : ∀ f, M.density f = ∑ q, f q + d) (T T' : Arr → GhostLayers.Spec.Torus size → Values K)
    (h : Spec.mass Q T = Spec.mass Q T') : (Spec.amount fun x => M.density fun q => T .hydro x q) = Spec.amount fun x => M.density fun q => T' .hydro x q := by
  unfold Spec.mass Spec.amount at h
  unfold Spec.amount
  simp only [hd, Finset.sum_add_distrib, h]

/-- One time step on the periodic grid -/
theorem step_invariant [CharZero K] (hf : Spec.FlowCollision M.directions M.collide) {d : K} (hd : ∀ f, M.density f = ∑ q, f q + d)
    (hch : ∀ i mu v f, ∑ q, M.chCollide i mu v f q = ∑ q, f q) {density : Option ℕ} {runHydro fd : Bool} {l : List (Op Arr (Values K) D)}
    (hl : M.program density runHydro fd = .ok l) (hT : Spec.Consistent n M.density density fd T) :
    Spec.Consistent n M.density density fd (step l T) ∧
    (∀ i < n, (Spec.amount fun x => step l T (.phi i) x 0) = Spec.amount fun x => T (.phi i) x 0) ∧
    Spec.mass Q (step l T) = Spec.mass Q T ∧
    ∀ a, Spec.momentum M.directions a (step l T) = Spec.momentum M.directions a T + if runHydro then Spec.pull M.extra T a else 0 := by
  obtain ⟨-, hfd, rfl⟩ := program_eq M hl
  rw [step_append, step_append]
  obtain ⟨T1, hT1⟩ : ∃ T1, T1 = step (prelude M) T := ⟨_, rfl⟩
  rw [← hT1]
  have p1 : ∀ i, T1 (.phi i) = T (.phi i) := fun i => hT1 ▸ prelude_other M T _ (by simp) (by simp) (by simp)
  have c1 : ∀ i, T1 (.ch i) = T (.ch i) := fun i => hT1 ▸ prelude_other M T _ (by simp) (by simp) (by simp)
  have g1 : T1 .hydro = T .hydro := hT1 ▸ prelude_other M T _ (by simp) (by simp) (by simp)
  have f1 : ∀ a : Fin D, (Spec.amount fun x => T1 .force x a) = Spec.pull M.extra T a := fun a => hT1 ▸ prelude_total M T a
  obtain ⟨T2, hT2⟩ : ∃ T2, T2 = step (if runHydro then hydroStep M.fns density else []) T1 := ⟨_, rfl⟩
  rw [← hT2]
  have p2 : ∀ i, density ≠ some i → T2 (.phi i) = T (.phi i) := fun i hi => by
    rw [hT2, ← p1]
    cases runHydro
    · rfl
    · exact hydro_other M T1 density _ (by simp) (by simp) (by simp) fun j hj h => hi (by cases h; exact hj)
  have c2 : ∀ i, T2 (.ch i) = T (.ch i) := fun i => by
    rw [hT2, ← c1]
    cases runHydro
    · rfl
    · exact hydro_other M T1 density _ (by simp) (by simp) (by simp) (by simp)
  have m2 : Spec.mass Q T2 = Spec.mass Q T := by
    rw [hT2, ← mass_congr g1]
    cases runHydro
    · rfl
    · exact hydro_mass M T1 hf density
  have q2 : ∀ a, Spec.momentum M.directions a T2 = Spec.momentum M.directions a T + if runHydro then Spec.pull M.extra T a else 0 := fun a => by
    rw [hT2, ← momentum_congr g1, ← f1]
    cases runHydro
    · exact (add_zero _).symm
    · exact hydro_momentum M T1 hf density a
  have d2 : ∀ i < n, density = some i → ∀ x, T2 (.phi i) x 0 = M.density fun q => T2 .hydro x q := fun i hi h x => by
    subst h
    cases runHydro
    · have e : T2 = T1 := hT2
      rw [e, p1, g1]
      exact ((hT i hi x).1 rfl)
    · have e : T2 = step (hydroStep M.fns (some i)) T1 := hT2
      rw [e]
      exact hydro_density M T1 i x
  have a2 : ∀ i < n, density = some i → (Spec.amount fun x => T2 (.phi i) x 0) = Spec.amount fun x => T (.phi i) x 0 := fun i hi h => by
    have e1 : (fun x => T2 (.phi i) x 0) = fun x => M.density fun q => T2 .hydro x q := funext (d2 i hi h)
    have e2 : (fun x => T (.phi i) x 0) = fun x => M.density fun q => T .hydro x q := funext fun x => (hT i hi x).1 h
    rw [e1, e2]
    exact density_amount M hd T2 T m2
  cases fd
  · simp only [Bool.false_eq_true, if_false]
    obtain ⟨s1, s2, s3⟩ := ch_steps M T2 hch ((List.range n).filter fun i => decide (some i ≠ density)) (List.nodup_range.filter _)
    have hm : ∀ i, i ∈ ((List.range n).filter fun i => decide (some i ≠ density)) ↔ i < n ∧ density ≠ some i := fun i => by
      rw [List.mem_filter, List.mem_range, decide_eq_true_eq]
      exact and_congr_right fun _ => ne_comm
    have g3 := s1 .hydro (by simp) (by simp) (by simp)
    refine ⟨fun i hi x => ⟨fun h => ?_, fun h _ => ?_⟩, fun i hi => ?_, (mass_congr g3).trans m2, fun a => (momentum_congr g3 _ a).trans (q2 a)⟩
    · rw [(s2 i (by rw [hm]; tauto)).1, g3]
      exact d2 i hi h x
    · exact (s3 i ((hm i).2 ⟨hi, h⟩)).1 x
    · by_cases h : density = some i
      · rw [(s2 i (by rw [hm]; tauto)).1]
        exact a2 i hi h
      · rw [(s3 i ((hm i).2 ⟨hi, h⟩)).2, c2]
        unfold Spec.amount
        exact Finset.sum_congr rfl fun x _ => ((hT i hi x).2 h rfl).symm
  · simp only [if_true]
    have hn := hfd rfl
    subst hn
    have g3 := fd_other M T2 .hydro (by simp) (by simp)
    refine ⟨fun i hi x => ⟨fun h => (by cases h), fun _ h => (by cases h)⟩, fun i hi => ?_, (mass_congr g3).trans m2,
      fun a => (momentum_congr g3 _ a).trans (q2 a)⟩
    rw [fd_amount M T2 i hi, p2 i (by simp)]

theorem pull_congr {T T' : Arr → GhostLayers.Spec.Torus size → Values K}
    (h : ∀ i < n, (Spec.amount fun x => T (.phi i) x 0) = Spec.amount fun x => T' (.phi i) x 0) (extra : List (Fin n × (Fin D → K))) (a : Fin D) :
    Spec.pull extra T a = Spec.pull extra T' a := by
  unfold Spec.pull
  congr 1
  refine List.map_congr_left fun e _ => ?_
  rw [h e.1 e.1.2]

theorem steps_invariant [CharZero K] (hf : Spec.FlowCollision M.directions M.collide) {d : K} (hd : ∀ f, M.density f = ∑ q, f q + d)
    (hch : ∀ i mu v f, ∑ q, M.chCollide i mu v f q = ∑ q, f q) {density : Option ℕ} {runHydro fd : Bool} {l : List (Op Arr (Values K) D)}
    (hl : M.program density runHydro fd = .ok l) (hT : Spec.Consistent n M.density density fd T) (steps : ℕ) :
    Spec.Consistent n M.density density fd ((step l)^[steps] T) ∧
    (∀ i < n, (Spec.amount fun x => (step l)^[steps] T (.phi i) x 0) = Spec.amount fun x => T (.phi i) x 0) ∧
    Spec.mass Q ((step l)^[steps] T) = Spec.mass Q T ∧
    ∀ a, Spec.momentum M.directions a ((step l)^[steps] T) = Spec.momentum M.directions a T + if runHydro then steps * Spec.pull M.extra T a else 0 := by
  induction steps with
  | zero => exact ⟨hT, fun _ _ => rfl, rfl, fun a => by simp⟩
  | succ m ih =>
    obtain ⟨h1, h2, h3, h4⟩ := ih
    obtain ⟨k1, k2, k3, k4⟩ := step_invariant M _ hf hd hch hl h1
    rw [Function.iterate_succ_apply']
    refine ⟨k1, fun i hi => (k2 i hi).trans (h2 i hi), k3.trans h3, fun a => ?_⟩
    rw [k4, h4, pull_congr h2]
    cases runHydro
    · simp
    · simp only [if_true]
      push_cast
      ring

/-- **C91.** On arrays with ghost layers, whatever these contain at first and in whatever order the cells are treated: `PhaseFieldStep` never
accesses memory outside of the arrays; after any number of time steps the amount of every order parameter and the mass of the flow are those of
the beginning, the momentum has changed by the extra forces on the order parameters only, and the order parameters are what the populations say. -/
theorem C91_phase_field [CharZero K] (hc : ∀ q, layers (M.directions q) ≤ 1) (hf : Spec.FlowCollision M.directions M.collide) {d : K}
    (hd : ∀ f, M.density f = ∑ q, f q + d) (hch : ∀ i mu v f, ∑ q, M.chCollide i mu v f q = ∑ q, f q) {density : Option ℕ} {runHydro fd : Bool}
    {l : List (Op Arr (Values K) D)} (hl : M.program density runHydro fd = .ok l) {g : ℕ} (hg : 1 ≤ g) (order : GhostLayers.Schedule D)
    (ho : GhostLayers.Spec.Valid size order) (t steps : ℕ) (st : Arrays Arr (Values K) D)
    (hst : Spec.Consistent n M.density density fd (GhostLayers.Spec.domain (size := size) st)) :
    ∃ st', runSteps size g order l t steps st = some st' ∧
      Spec.Consistent n M.density density fd (GhostLayers.Spec.domain (size := size) st') ∧
      (∀ i < n, (Spec.amount fun x => GhostLayers.Spec.domain (size := size) st' (.phi i) x 0) =
        Spec.amount fun x => GhostLayers.Spec.domain (size := size) st (.phi i) x 0) ∧
      Spec.mass Q (GhostLayers.Spec.domain (size := size) st') = Spec.mass Q (GhostLayers.Spec.domain (size := size) st) ∧
      ∀ a, Spec.momentum M.directions a (GhostLayers.Spec.domain (size := size) st') =
        Spec.momentum M.directions a (GhostLayers.Spec.domain (size := size) st) +
          if runHydro then steps * Spec.pull M.extra (GhostLayers.Spec.domain (size := size) st) a else 0 := by
  obtain ⟨hp, -, -⟩ := program_eq M hl
  obtain ⟨st', e, h⟩ := (C90_phase_field M.fns hg order ho n density runHydro fd).2 l hp (allLocal M hc density runHydro fd l hp) t steps st
  exact ⟨st', e, h ▸ steps_invariant M _ hf hd hch hl hst steps⟩

end Conservation

/-! ## What a time step computes -/

/-- One time step in terms of the fields on the periodic grid.  The chemical potentials and the force are those of the order parameters at the
beginning of the step, the flow is updated with this force, and the order parameters move with the new velocity. -/
structure Spec.Step (M : Model K D Q n) (density : Option ℕ) (runHydro fd : Bool) (T T' : Arr → GhostLayers.Spec.Torus size → Values K) : Prop where
  mu : ∀ (i : Fin n) x, T' (.mu i) x 0 = muKernel M.dx M.energy (fun j y => T (.phi j) y 0) i x
  force : ∀ P, pressureKernel M.dx M.energy (fun j y => T (.phi j) y 0) none true = .ok P → ∀ x (b : Fin D),
    T' .force x b = forceUsingPressure M.dx P none (some fun b => (M.extra.map fun e => e.2 b * T (.phi e.1) x 0).sum) b x
  hydro : ∀ x (q : Fin Q), T' .hydro x q = if runHydro then
      M.collide (fun a => T' .force (x - GhostLayers.Spec.toTorus size (M.directions q)) a)
        (fun q' => T .hydro (x - GhostLayers.Spec.toTorus size (M.directions q)) q') q
    else T .hydro x q
  velocity : ∀ x (a : Fin D), T' .velocity x a = if runHydro then M.velocity (fun a => T' .force x a) (fun q => T' .hydro x q) a else T .velocity x a
  densityPhi : ∀ i, density = some i → ∀ x, T' (.phi i) x 0 = if runHydro then M.density fun q => T' .hydro x q else T (.phi i) x 0
  pdfs : fd = false → ∀ i < n, density ≠ some i → ∀ x (q : Fin Q), T' (.ch i) x q = M.chCollide i (T' (.mu i) x 0) (fun a => T' .velocity x a)
    (fun q' => T (.ch i) (x - GhostLayers.Spec.toTorus size (M.directions q')) q') q
  phi : fd = false → ∀ i < n, density ≠ some i → ∀ x,
    T' (.phi i) x 0 = ∑ q : Fin Q, T (.ch i) (x - GhostLayers.Spec.toTorus size (M.directions q)) q
  differences : fd = true → ∀ i < n, ∀ x, T' (.phi i) x 0 =
    cahnHilliardEq M.dx M.dt 1 (fun y => T (.phi i) y 0) (fun y => T' (.mu i) y 0) (fun a y => T' .velocity y a) x

section StepSpec

open GhostLayers.Spec (step op toTorus)

variable (T : Arr → GhostLayers.Spec.Torus size → Values K)

theorem fns_mu (w : Arr → Vec D → Values K) (i : Fin n) : M.fns .muPressure w (.mu i) = fun _ => muKernel M.dx M.energy (Model.phiAround w) i 0 := by
  simp only [Model.fns, dif_pos i.2]

theorem fns_velocity (w : Arr → Vec D → Values K) :
    M.fns .stream w .velocity = Model.toValues (M.velocity (fun a => w .force 0 a) (M.streamed w .hydro)) := rfl

theorem prelude_mu (i : Fin n) (x : Cell size) : step (prelude M) T (.mu i) x 0 = muKernel M.dx M.energy (phiOf T) i x := by
  have e : step (prelude M) T (.mu i) = op (op T (mk M.fns .muPressure (GhostLayers.around 1 (all n .phi)) (all n .mu ++ [.pressure])))
      (mk M.fns .force (GhostLayers.around 1 [.pressure] ++ centre (all n .phi)) [.force]) (.mu i) := rfl
  rw [e, op_mk_not_mem _ _ _ _ _ (by simp), op_mk_mem _ _ _ _ _ (by simp [mem_all]), fns_mu]
  exact muKernel_window M.dx M.energy (phiOf T) x i

theorem hydro_velocity (density : Option ℕ) (x : Cell size) (a : Fin D) : step (hydroStep M.fns density) T .velocity x a =
    M.velocity (fun a => T .force x a) (fun q => step (hydroStep M.fns density) T .hydro x q) a := by
  have e : step (hydroStep M.fns density) T .velocity = op (op T (mk M.fns .collide (centre [.hydro, .force]) [.hydro]))
      (mk M.fns .stream (GhostLayers.around 1 [.hydro] ++ centre [.force]) ([.hydroTmp, .velocity] ++ (density.map Arr.phi).toList)) .velocity := rfl
  rw [e, op_mk_mem _ _ _ _ _ (by simp), fns_velocity, toValues_fin]
  have h : M.streamed (fun b o => op T (mk M.fns .collide (centre [.hydro, .force]) [.hydro]) b (x + toTorus size o)) .hydro =
      fun q : Fin Q => step (hydroStep M.fns density) T .hydro x q := by
    funext q
    rw [hydro_pdfs]
    unfold Model.streamed
    beta_reduce
    rw [op_mk_mem _ _ _ _ _ (by simp), fns_collide, toValues_fin]
    simp only [add_zero_torus]
  rw [h, op_mk_not_mem _ _ _ _ _ (by simp), add_zero_torus]

theorem sub_torus (x : Cell size) (c : Vec D) : x + toTorus size (-c) = x - toTorus size c := by
  funext i
  simp [toTorus, sub_eq_add_neg]

theorem ch_steps_fields (l : List ℕ) (hl : l.Nodup) (i : ℕ) (hi : i ∈ l) (x : Cell size) :
    (∀ q : Fin Q, step (l.flatMap (chStep M.fns)) T (.ch i) x q = M.chCollide i (T (.mu i) x 0) (fun a => T .velocity x a)
      (fun q' => T (.ch i) (x - toTorus size (M.directions q')) q') q) ∧
    step (l.flatMap (chStep M.fns)) T (.phi i) x 0 = ∑ q : Fin Q, T (.ch i) (x - toTorus size (M.directions q)) q := by
  have other : ∀ (l : List ℕ) (T : Arr → GhostLayers.Spec.Torus size → Values K) (a : Arr), (∀ j ∈ l, a ≠ .ch j ∧ a ≠ .chTmp j ∧ a ≠ .phi j) →
      step (l.flatMap (chStep M.fns)) T a = T a := by
    intro l
    induction l with
    | nil => exact fun _ _ _ => rfl
    | cons j l ih =>
      intro T a h
      rw [List.flatMap_cons, step_append, ih _ _ fun k hk => h k (List.mem_cons_of_mem _ hk)]
      have := h j (by simp)
      exact ch_other M T j a this.1 this.2.1 this.2.2
  induction l generalizing T with
  | nil => simp at hi
  | cons j l ih =>
    rw [List.nodup_cons] at hl
    rw [List.flatMap_cons, step_append]
    by_cases hij : i = j
    · subst hij
      have hne : ∀ j ∈ l, i ≠ j := fun j hj h => hl.1 (h ▸ hj)
      rw [other l _ (.ch i) fun j hj => ⟨by simp [hne j hj], by simp, by simp⟩, other l _ (.phi i) fun j hj => ⟨by simp, by simp, by simp [hne j hj]⟩]
      refine ⟨fun q => ?_, ?_⟩
      · rw [ch_pdfs]
        simp only [sub_torus]
      · rw [ch_phi]
        simp only [sub_torus]
    · have hi : i ∈ l := by simpa [hij] using hi
      have := ih (step (chStep M.fns j) T) hl.2 hi
      rw [ch_other M T j (.mu i) (by simp) (by simp) (by simp), ch_other M T j .velocity (by simp) (by simp) (by simp),
        ch_other M T j (.ch i) (by simp [hij]) (by simp) (by simp)] at this
      exact this

theorem step_spec {density : Option ℕ} {runHydro fd : Bool} {l : List (Op Arr (Values K) D)} (hl : M.program density runHydro fd = .ok l) :
    Spec.Step M density runHydro fd T (step l T) := by
  obtain ⟨-, hfd, rfl⟩ := program_eq M hl
  rw [step_append, step_append]
  obtain ⟨T1, hT1⟩ : ∃ T1, T1 = step (prelude M) T := ⟨_, rfl⟩
  rw [← hT1]
  have o1 : ∀ a, (∀ i, a ≠ .mu i) → a ≠ .pressure → a ≠ .force → T1 a = T a := fun a h1 h2 h3 => hT1 ▸ prelude_other M T a h1 h2 h3
  obtain ⟨T2, hT2⟩ : ∃ T2, T2 = step (if runHydro then hydroStep M.fns density else []) T1 := ⟨_, rfl⟩
  rw [← hT2]
  have o2 : ∀ a, a ≠ .hydro → a ≠ .hydroTmp → a ≠ .velocity → (∀ i, density = some i → a ≠ .phi i) → T2 a = T1 a := fun a h1 h2 h3 h4 => by
    rw [hT2]
    cases runHydro
    · rfl
    · exact hydro_other M T1 density a h1 h2 h3 h4
  obtain ⟨T3, hT3⟩ : ∃ T3, T3 = step (if fd then fdStep M.fns n else ((List.range n).filter fun i => decide (some i ≠ density)).flatMap (chStep M.fns)) T2 :=
    ⟨_, rfl⟩
  rw [← hT3]
  have hm : ∀ i, i ∈ ((List.range n).filter fun i => decide (some i ≠ density)) ↔ i < n ∧ density ≠ some i := fun i => by
    rw [List.mem_filter, List.mem_range, decide_eq_true_eq]
    exact and_congr_right fun _ => ne_comm
  have hnd : ((List.range n).filter fun i => decide (some i ≠ density)).Nodup := List.nodup_range.filter _
  have o3 : ∀ a, (∀ i, a ≠ .ch i) → (∀ i, a ≠ .chTmp i) → (∀ i, a ≠ .phi i) → (∀ i, a ≠ .phiTmp i) → T3 a = T2 a := fun a h1 h2 h3 h4 => by
    rw [hT3]
    cases fd
    · have other : ∀ (l : List ℕ) (T : Arr → GhostLayers.Spec.Torus size → Values K), step (l.flatMap (chStep M.fns)) T a = T a := by
        intro l
        induction l with
        | nil => exact fun _ => rfl
        | cons j l ih =>
          intro T
          rw [List.flatMap_cons, step_append, ih]
          exact ch_other M T j a (h1 j) (h2 j) (h3 j)
      exact other _ _
    · exact fd_other M T2 a h3 h4
  have emu : ∀ i, T3 (.mu i) = T1 (.mu i) := fun i => (o3 _ (by simp) (by simp) (by simp) (by simp)).trans (o2 _ (by simp) (by simp) (by simp) (by simp))
  have eforce : T3 .force = T1 .force := (o3 _ (by simp) (by simp) (by simp) (by simp)).trans (o2 _ (by simp) (by simp) (by simp) (by simp))
  have ehydro : T3 .hydro = T2 .hydro := o3 _ (by simp) (by simp) (by simp) (by simp)
  have evel : T3 .velocity = T2 .velocity := o3 _ (by simp) (by simp) (by simp) (by simp)
  refine ⟨fun i x => ?_, fun P hP x b => ?_, fun x q => ?_, fun x a => ?_, fun i hi x => ?_, fun h i hi hd x q => ?_, fun h i hi hd x => ?_,
    fun h i hi x => ?_⟩
  · rw [emu, hT1]
    exact prelude_mu M T i x
  · rw [eforce, hT1, prelude_force]
    have : M.pressure (phiOf T) = P := by
      unfold Model.pressure
      rw [show phiOf T = fun (j : Fin n) y => T (.phi j) y 0 from rfl, hP]
    rw [this]
    rfl
  · rw [ehydro, eforce, hT2]
    cases runHydro
    · simp only [Bool.false_eq_true, if_false]
      exact congrFun (congrFun (o1 .hydro (by simp) (by simp) (by simp)) x) q
    · simp only [if_true]
      rw [hydro_pdfs, o1 .hydro (by simp) (by simp) (by simp), sub_torus]
  · rw [ehydro, eforce, evel, hT2]
    cases runHydro
    · simp only [Bool.false_eq_true, if_false]
      exact congrFun (congrFun (o1 .velocity (by simp) (by simp) (by simp)) x) a
    · simp only [if_true]
      exact hydro_velocity M T1 density x a
  · have e : T3 (.phi i) = T2 (.phi i) := by
      rw [hT3]
      cases fd
      · have other : ∀ (l : List ℕ) (T : Arr → GhostLayers.Spec.Torus size → Values K), i ∉ l → step (l.flatMap (chStep M.fns)) T (.phi i) = T (.phi i) := by
          intro l
          induction l with
          | nil => exact fun _ _ => rfl
          | cons j l ih =>
            intro T h
            rw [List.mem_cons, not_or] at h
            rw [List.flatMap_cons, step_append, ih _ h.2]
            exact ch_other M T j _ (by simp) (by simp) (by simp [h.1])
        exact other _ _ (by rw [hm]; tauto)
      · rw [hfd rfl] at hi
        cases hi
    rw [e, ehydro, hT2]
    subst hi
    cases runHydro
    · simp only [Bool.false_eq_true, if_false]
      exact congrFun (congrFun (o1 (.phi i) (by simp) (by simp) (by simp)) x) 0
    · exact hydro_density M T1 i x
  · subst h
    have h3 : T3 = step (((List.range n).filter fun i => decide (some i ≠ density)).flatMap (chStep M.fns)) T2 := hT3
    have := (ch_steps_fields M T2 _ hnd i ((hm i).2 ⟨hi, hd⟩) x).1 q
    rw [← h3] at this
    rw [this, emu, evel, o2 (.mu i) (by simp) (by simp) (by simp) (by simp), o2 (.ch i) (by simp) (by simp) (by simp) (by simp),
      o1 (.ch i) (by simp) (by simp) (by simp)]
  · subst h
    have h3 : T3 = step (((List.range n).filter fun i => decide (some i ≠ density)).flatMap (chStep M.fns)) T2 := hT3
    have := (ch_steps_fields M T2 _ hnd i ((hm i).2 ⟨hi, hd⟩) x).2
    rw [← h3] at this
    rw [this, o2 (.ch i) (by simp) (by simp) (by simp) (by simp), o1 (.ch i) (by simp) (by simp) (by simp)]
  · subst h
    have hn := hfd rfl
    subst hn
    have h3 : T3 = step (fdStep M.fns n) T2 := hT3
    have := fd_phi M T2 i hi x
    rw [← h3] at this
    rw [this, emu, evel, o2 (.mu i) (by simp) (by simp) (by simp) (by simp), o2 (.phi i) (by simp) (by simp) (by simp) (by simp),
      o1 (.phi i) (by simp) (by simp) (by simp)]

/-- **C91 (one time step).** On arrays with ghost layers, whatever these contain and in whatever order the cells are treated, a time step computes
the fields of the scheme on the periodic grid; this needs nothing of the collisions. -/
theorem C91_step [∀ i, NeZero (size i)] (hc : ∀ q, layers (M.directions q) ≤ 1) {density : Option ℕ} {runHydro fd : Bool}
    {l : List (Op Arr (Values K) D)} (hl : M.program density runHydro fd = .ok l) {g : ℕ} (hg : 1 ≤ g) (order : GhostLayers.Schedule D)
    (ho : GhostLayers.Spec.Valid size order) (t steps : ℕ) (st : Arrays Arr (Values K) D) :
    ∃ st' st'', runSteps size g order l t steps st = some st' ∧ runSteps size g order l t (steps + 1) st = some st'' ∧
      Spec.Step M density runHydro fd (GhostLayers.Spec.domain (size := size) st') (GhostLayers.Spec.domain (size := size) st'') := by
  obtain ⟨hp, -, -⟩ := program_eq M hl
  have hr := (C90_phase_field M.fns hg order ho n density runHydro fd).2 l hp (allLocal M hc density runHydro fd l hp) t
  obtain ⟨st', e, h⟩ := hr steps st
  obtain ⟨st'', e', h'⟩ := hr (steps + 1) st
  refine ⟨st', st'', e, e', ?_⟩
  rw [h', Function.iterate_succ_apply', ← h]
  exact step_spec M _ hl

/-- **C91 (errors).** The constructor raises what the pressure tensor raises, and else a `NotImplementedError` exactly for a density order
parameter together with finite differences. -/
theorem C91_errors (density : Option ℕ) (runHydro fd : Bool) :
    (∀ e, extractGamma M.energy = .error e → M.program density runHydro fd = .error e) ∧
    ∀ gamma, extractGamma M.energy = .ok gamma →
      if fd = true ∧ density ≠ none then M.program density runHydro fd = .error .notImplemented else ∃ l, M.program density runHydro fd = .ok l := by
  unfold Model.program
  refine ⟨fun e he => by rw [he], fun gamma hg => ?_⟩
  rw [hg]
  unfold phaseFieldStep
  cases fd <;> cases density <;> simp

end StepSpec

/-! ## The methods of the package -/

/-- The directions of a stencil -/
def Spec.directions (st : List (List ℤ)) (q : Fin st.length) : Vec (st.headD []).length := fun a => (st.get q).getD a 0

theorem predefined_layers : ∀ e ∈ Tables.predefined, (getWeights e.2.2).isSome → ∀ q : Fin e.2.2.length, layers (Spec.directions e.2.2 q) ≤ 1 := by
  decide +kernel

/-- **C91 (methods).** The hypotheses on collisions are met: for every predefined stencil, every incompressible method with the discrete
Maxwellian and every force model but `CentralMoment` and `He`; and for every method of an order parameter. -/
theorem C91_methods [CharZero K] [DecidableEq K] : ∀ e ∈ Tables.predefined, ∀ (o : MaxwellOptions K e.2.2)
    (cq : (Fin (e.2.2.headD []).length → K) → Cqc K (e.2.2.headD []).length) (k : ForceKind), k ≠ .centralMoment → k ≠ .he →
    (∀ F, o.Valid (cq F) ∧ (cq F).compressible = false ∧ (cq F).force = some (k, F)) →
    ∀ h : ∀ F, (o.method (cq F)).relax.length = e.2.2.length,
    (defaultMomentSet (e.2.2.headD []).length e.2.2.length).isSome → ∀ omega gamma : ℕ → K,
    ∃ (collide : (Fin (e.2.2.headD []).length → K) → (Fin e.2.2.length → K) → Fin e.2.2.length → K)
      (chCollide : ℕ → K → (Fin (e.2.2.headD []).length → K) → (Fin e.2.2.length → K) → Fin e.2.2.length → K),
      (∀ F, ((o.withForce (cq F) (h F) k F).method (cq F)).getCollisionRule = .ok (collide F)) ∧
      (∀ i mu v, CahnHilliardLb.collisionRule e.2.2 (.plain (omega i)) mu (gamma i) v = .ok (chCollide i mu v)) ∧
      (∀ q, layers (Spec.directions e.2.2 q) ≤ 1) ∧ Spec.FlowCollision (Spec.directions e.2.2) collide ∧
      (∀ i mu v f, ∑ q, chCollide i mu v f q = ∑ q, f q) ∧
      ∀ F csSq, ∃ d, ∀ f, ((cq F).output csSq (Lbm.Spec.vel e.2.2 _) f).density = ∑ q, f q + d := by
  intro e he o cq k hk hk' hv h hd omega gamma
  have h1 := fun F => C23_predefined e he o (cq F) (hv F).1 (h F) k F hk (fun h => absurd h hk') (hv F).2.2
  choose collide hc using h1
  have hw : (getWeights e.2.2).isSome := by
    rw [(hv fun _ => 0).1.weights]
    rfl
  have h2 := fun i mu v => CahnHilliardLb.C66_collision (K := K) e he hw hd (omega i) mu (gamma i) v
  choose chCollide hch using h2
  refine ⟨collide, chCollide, fun F => (hc F).1, fun i mu v => (hch i mu v).1, predefined_layers e he hw, ⟨fun F f => ?_, fun F f a => ?_⟩, fun i mu v f => ?_, fun F csSq => ?_⟩
  · exact ((hc F).2 f fun h => by rw [(hv F).2.1] at h; simp [hk'] at h).1
  · exact ((hc F).2 f fun h => by rw [(hv F).2.1] at h; simp [hk'] at h).2 a
  · exact (CahnHilliardLb.C66_conservation e he _ _ _ _ _ (hch i mu v).1 f).1
  · unfold Cqc.output
    by_cases hz : (cq F).zeroCentered = true
    · exact ⟨(cq F).rho0, fun f => by simp [hz, add_comm]⟩
    · exact ⟨0, fun f => by simp [hz]⟩

/-- The hypotheses are met by the method of two rates on D2Q9 with the force model of Guo. -/
example : ∃ (collide : _) (chCollide : ℕ → ℚ → (Fin 2 → ℚ) → (Fin 9 → ℚ) → Fin 9 → ℚ), Spec.FlowCollision (K := ℚ) (Spec.directions Tables.D2Q9_uk) collide ∧
    (∀ (i : ℕ) (mu : ℚ) (v : Fin 2 → ℚ) (f : Fin 9 → ℚ), ∑ q, chCollide i mu v f q = ∑ q, f q) := by
  have he : ("D2Q9", "uk", Tables.D2Q9_uk) ∈ Tables.predefined := by decide +kernel
  obtain ⟨collide, chCollide, -, -, -, h1, h2, -⟩ := C91_methods _ he ForceExample.o (fun F => ⟨false, true, 1, some (.guo, F)⟩) .guo (by decide) (by decide)
    (fun F => ⟨⟨ForceExample.valid.offered, ForceExample.valid.weights, rfl, fun _ => rfl, ForceExample.valid.transform, .inl (by decide)⟩, rfl, rfl⟩)
    (fun F => (by decide +kernel : ForceExample.o.relax.length = 9)) (by decide +kernel) (fun i => 1 / (i + 2)) (fun _ => 1)
  exact ⟨collide, chCollide, h1, h2⟩

/-- A model in one dimension: two order parameters, the first pulled to the right -/
noncomputable def exampleModel : Model ℚ 1 3 2 where
  dx := 1
  dt := 1 / 10
  energy := quartics
  extra := [(0, fun _ => 1 / 100)]
  directions := fun q _ => q.1 - 1
  collide := fun F f q => f q + (q.1 - 1) * F 0 / 2
  velocity := fun F f _ => f 2 - f 0 + F 0 / 2
  density := fun f => ∑ q, f q + 1
  chCollide := fun _ mu v f q => f q + (q.1 - 1) * (mu + v 0)

/-- The hypotheses of the theorem are met: a drop of 3 cells of the first order parameter in a domain of 5; after 7 steps there is still the same
amount, and the flow has got the momentum `7 * 3 / 100`. -/
example (fd : Bool) : ∃ l st', exampleModel.program none true fd = .ok l ∧
    runSteps (fun _ => 5) 1 (line fun _ => 5) l 0 7 (fun a y k => if a = .phi 0 ∧ k = 0 ∧ y 0 < 3 ∨ a = .ch 0 ∧ k = 1 ∧ y 0 < 3 then 1 else 0) = some st' ∧
    (Spec.amount fun x => GhostLayers.Spec.domain (size := fun _ : Fin 1 => 5) st' (.phi 0) x 0) = 3 ∧
    Spec.momentum exampleModel.directions 0 (GhostLayers.Spec.domain (size := fun _ : Fin 1 => 5) st') = 21 / 100 := by
  obtain ⟨l, hl⟩ : ∃ l, exampleModel.program none true fd = .ok l := by
    cases fd <;> exact ⟨_, rfl⟩
  have hf : Spec.FlowCollision exampleModel.directions exampleModel.collide := by
    constructor
    · intro F f
      simp only [exampleModel, Fin.sum_univ_three]
      norm_num
      ring
    · intro F f a
      fin_cases a
      simp only [exampleModel, Fin.sum_univ_three]
      norm_num
      ring
  have hch : ∀ i mu v f, ∑ q, exampleModel.chCollide i mu v f q = ∑ q, f q := by
    intro i mu v f
    simp only [exampleModel, Fin.sum_univ_three]
    norm_num
    ring
  obtain ⟨st', e, -, h1, -, h2⟩ := C91_phase_field exampleModel (by decide +kernel) hf (d := 1) (fun _ => rfl) hch hl (le_refl 1) (line fun _ => 5)
    (line_valid _) 0 7 (fun a y k => if a = .phi 0 ∧ k = 0 ∧ y 0 < 3 ∨ a = .ch 0 ∧ k = 1 ∧ y 0 < 3 then 1 else 0) (by
      intro i hi x
      refine ⟨fun h => absurd h (by simp), fun _ _ => ?_⟩
      simp only [GhostLayers.Spec.domain, Fin.sum_univ_three]
      rcases Nat.lt_succ_iff_lt_or_eq.1 hi with h | h
      · have : i = 0 := by omega
        subst this
        simp
      · subst h
        simp)
  refine ⟨l, st', hl, e, (h1 0 (by decide)).trans (by decide +kernel), (h2 0).trans ?_⟩
  have m : Spec.momentum exampleModel.directions 0 (GhostLayers.Spec.domain (size := fun _ : Fin 1 => 5) fun (a : Arr) (y : Vec 1) (k : ℕ) =>
      if a = .phi 0 ∧ k = 0 ∧ y 0 < 3 ∨ a = .ch 0 ∧ k = 1 ∧ y 0 < 3 then (1 : ℚ) else 0) = 0 := by
    unfold Spec.momentum Spec.amount
    simp [GhostLayers.Spec.domain]
  have p : Spec.pull exampleModel.extra (GhostLayers.Spec.domain (size := fun _ : Fin 1 => 5) fun (a : Arr) (y : Vec 1) (k : ℕ) =>
      if a = .phi 0 ∧ k = 0 ∧ y 0 < 3 ∨ a = .ch 0 ∧ k = 1 ∧ y 0 < 3 then (1 : ℚ) else 0) 0 = 3 / 100 := by
    unfold Spec.pull exampleModel
    decide +kernel
  rw [m, p]
  norm_num

/-- The same drop: the chemical potential after the first step is that of the drop, `4 phi ^ 3`. -/
example (fd : Bool) : ∃ l st', exampleModel.program none true fd = .ok l ∧
    runSteps (fun _ => 5) 1 (line fun _ => 5) l 0 1 (fun a y k => if a = .phi 0 ∧ k = 0 ∧ y 0 < 3 then 2 else 0) = some st' ∧
    GhostLayers.Spec.domain (size := fun _ : Fin 1 => 5) st' (.mu 0) (fun _ => 1) 0 = 32 := by
  obtain ⟨l, hl⟩ : ∃ l, exampleModel.program none true fd = .ok l := by
    cases fd <;> exact ⟨_, rfl⟩
  obtain ⟨st', st'', e, e', h⟩ := C91_step exampleModel (size := fun _ : Fin 1 => 5) (by decide +kernel) hl (le_refl 1) (line fun _ => 5)
    (line_valid _) 0 0 (fun a y k => if a = .phi 0 ∧ k = 0 ∧ y 0 < 3 then 2 else 0)
  cases e
  refine ⟨l, st'', hl, e', (h.mu 0 _).trans ?_⟩
  simp only [muKernel, muBulkAt, exampleModel, quartics, List.map_nil, List.sum_nil, add_zero]
  simp [MvPolynomial.pderiv_X]
  simp [GhostLayers.Spec.domain, show (ZMod.val (1 : ZMod 5)) = 1 from rfl]
  norm_num

end PhaseFieldRun
end Lbm
