import Verif.PhaseKernels
import Verif.Props.PressureTensor
import Mathlib.Algebra.BigOperators.Group.Finset.Basic
import Mathlib.Algebra.Order.BigOperators.Group.Finset
import Mathlib.Algebra.Order.Ring.Defs
import Mathlib.Tactic.Ring
import Mathlib.Tactic.FieldSimp
import Mathlib.Tactic.LinearCombination
import Mathlib.Tactic.NormNum
import Mathlib.Tactic.FinCases
import Mathlib.Tactic.Positivity
import Mathlib.RingTheory.MvPolynomial.EulerIdentity

/-!
# Property C88: the kernels of the multi-phase model on a periodic grid

The finite difference step of the Cahn-Hilliard equation conserves every phase and takes energy out of the system; the force from the
pressure tensor adds no momentum in total, that from the chemical potentials does.
-/

namespace Lbm
namespace PhaseKernels

open PhaseField

variable {D n : ℕ} {size : Fin D → ℕ} {K : Type} [Field K]

/-! ## Specification -/

namespace Spec

/-- The amount of a quantity on the grid -/
def total [∀ a, NeZero (size a)] (f : Cell size → K) : K := ∑ x, f x

/-- The velocity has no divergence in the central difference scheme. -/
def DivergenceFree (dx : K) (u : Fin D → Cell size → K) : Prop := ∀ x, ∑ a, diff1 dx (u a) a x = 0

/-- The square of the differences between neighbouring cells -/
def roughness [∀ a, NeZero (size a)] (f : Cell size → K) : K := ∑ x, ∑ a, (f (neighbor x a 1) - f x) ^ 2

end Spec

section Shift

variable [∀ a, NeZero (size a)]

theorem sum_neighbor (f : Cell size → K) (a : Fin D) (o : ℤ) : ∑ x, f (neighbor x a o) = ∑ x, f x :=
  Equiv.sum_comp (Equiv.addRight (Pi.single a (o : ZMod (size a)) : Cell size)) f

omit [∀ a, NeZero (size a)] in
theorem neighbor_neighbor (x : Cell size) (a b : Fin D) (o p : ℤ) : neighbor (neighbor x a o) b p = neighbor (neighbor x b p) a o := by
  unfold neighbor
  rw [add_right_comm]

omit [∀ a, NeZero (size a)] in
theorem neighbor_back (x : Cell size) (a : Fin D) : neighbor (neighbor x a 1) a (-1) = x ∧ neighbor (neighbor x a (-1)) a 1 = x := by
  unfold neighbor
  constructor <;> rw [add_assoc, ← Pi.single_add] <;> simp

theorem sum_diff1 (dx : K) (f : Cell size → K) (a : Fin D) : ∑ x, diff1 dx f a x = 0 := by
  unfold diff1
  rw [← Finset.sum_div, Finset.sum_sub_distrib, sum_neighbor, sum_neighbor, sub_self, zero_div]

/-- Moving a shift to the other factor -/
theorem sum_mul_neighbor (f g : Cell size → K) (a : Fin D) :
    ∑ x, f x * g (neighbor x a 1) = ∑ x, f (neighbor x a (-1)) * g x := by
  rw [← sum_neighbor (fun x => f (neighbor x a (-1)) * g x) a 1]
  simp only [(neighbor_back _ _).1]

theorem sum_mul_diff1 (dx : K) (f g : Cell size → K) (a : Fin D) : ∑ x, f x * diff1 dx g a x = -∑ x, diff1 dx f a x * g x := by
  unfold diff1
  have h1 := sum_mul_neighbor f g a
  have h2 := sum_mul_neighbor g f a
  have e : ∀ x, f x * ((g (neighbor x a 1) - g (neighbor x a (-1))) / (2 * dx)) =
      (f x * g (neighbor x a 1) - f x * g (neighbor x a (-1))) / (2 * dx) := fun x => by ring
  have e' : ∀ x, (f (neighbor x a 1) - f (neighbor x a (-1))) / (2 * dx) * g x =
      (g x * f (neighbor x a 1) - f (neighbor x a (-1)) * g x) / (2 * dx) := fun x => by ring
  simp only [e, e']
  rw [← Finset.sum_div, ← Finset.sum_div, Finset.sum_sub_distrib, Finset.sum_sub_distrib, h1, h2]
  simp only [mul_comm (f _)]
  ring

theorem sum_mul_diff2 (dx : K) (f g : Cell size → K) (a : Fin D) : ∑ x, f x * diff2 dx g a x = ∑ x, diff2 dx f a x * g x := by
  unfold diff2
  have h1 := sum_mul_neighbor f g a
  have h2 := sum_mul_neighbor g f a
  have e : ∀ x, f x * ((g (neighbor x a 1) - 2 * g x + g (neighbor x a (-1))) / dx ^ 2) =
      (f x * g (neighbor x a 1) - 2 * (f x * g x) + g (neighbor x a (-1)) * f x) / dx ^ 2 := fun x => by ring
  have e' : ∀ x, (f (neighbor x a 1) - 2 * f x + f (neighbor x a (-1))) / dx ^ 2 * g x =
      (g x * f (neighbor x a 1) - 2 * (f x * g x) + f (neighbor x a (-1)) * g x) / dx ^ 2 := fun x => by ring
  simp only [e, e']
  rw [← Finset.sum_div, ← Finset.sum_div]
  simp only [Finset.sum_add_distrib, Finset.sum_sub_distrib]
  rw [h1, h2]
  ring

theorem sum_mul_lap (dx : K) (f g : Cell size → K) : ∑ x, f x * lap dx g x = ∑ x, lap dx f x * g x := by
  unfold lap
  simp only [Finset.mul_sum, Finset.sum_mul]
  rw [Finset.sum_comm, Finset.sum_comm (f := fun x a => diff2 dx f a x * g x)]
  exact Finset.sum_congr rfl fun a _ => sum_mul_diff2 dx f g a

omit [∀ a, NeZero (size a)] in
theorem diff1_lap (dx : K) (f : Cell size → K) (a : Fin D) (x : Cell size) : diff1 dx (lap dx f) a x = lap dx (diff1 dx f a) x := by
  unfold lap
  have e : ∀ b, diff2 dx (diff1 dx f a) b x = (diff2 dx f b (neighbor x a 1) - diff2 dx f b (neighbor x a (-1))) / (2 * dx) := by
    intro b
    unfold diff2 diff1
    rw [neighbor_neighbor x b a, neighbor_neighbor x b a, neighbor_neighbor x b a, neighbor_neighbor x b a]
    ring
  simp only [e]
  rw [← Finset.sum_div, Finset.sum_sub_distrib]
  rfl

end Shift

/-! ## Forces -/

section Momentum

variable [∀ a, NeZero (size a)]

/-- **C88 (pressure tensor).** The force from the pressure tensor, with and without the square root term, adds no momentum in total. -/
theorem C88_pressure_momentum [CharZero K] (dx : K) (P : Fin D → Fin D → Cell size → K) (pbs : Option (Cell size → K)) (b : Fin D) :
    Spec.total (forceUsingPressure dx P pbs none b) = 0 := by
  unfold Spec.total forceUsingPressure
  simp only [add_zero, Finset.sum_add_distrib, Finset.sum_neg_distrib]
  rw [Finset.sum_comm]
  simp only [sum_diff1, Finset.sum_const_zero, neg_zero, zero_add]
  cases pbs with
  | none => simp
  | some s =>
    have h := sum_mul_diff1 dx s s b
    have e : ∀ x, 2 * diff1 dx s b x * s x = 2 * (s x * diff1 dx s b x) := fun x => by ring
    simp only [e, ← Finset.mul_sum]
    have e' : ∑ x, diff1 dx s b x * s x = ∑ x, s x * diff1 dx s b x := Finset.sum_congr rfl fun x _ => mul_comm _ _
    rw [e'] at h
    have : 2 * ∑ x, s x * diff1 dx s b x = 0 := by linear_combination h
    exact this

/-- **C88 (extra force).** A constant extra force adds exactly itself in every cell. -/
theorem C88_extra_force (dx : K) (P : Fin D → Fin D → Cell size → K) (pbs : Option (Cell size → K)) (f : Fin D → K) (b : Fin D)
    (x : Cell size) : forceUsingPressure dx P pbs (some f) b x = forceUsingPressure dx P pbs none b x + f b := by
  unfold forceUsingPressure
  simp

/-- **C88 (chemical potentials of the interface).** The force from that part of the chemical potentials that comes from the gradients
adds no momentum in total.

Partial: the full statement is `Spec.total (forceUsingMu dx phi (muKernel dx F phi) a) = 0` for all free energies `F`.  It is false because of the
bulk part, see `C88_mu_bulk_wrong`. -/
theorem C88_mu_momentum_partial (dx : K) (products : List (K × List (Option (Fin n)))) (phi : Fin n → Cell size → K) (a : Fin D) :
    Spec.total (forceUsingMu dx phi (fun i x => (products.map fun p => muProductAt dx phi i p x).sum) a) = 0 := by
  unfold Spec.total forceUsingMu
  induction products with
  | nil => simp [diff1]
  | cons p ps ih =>
    have lin : ∀ i x, diff1 dx (fun x => ((p :: ps).map fun p => muProductAt dx phi i p x).sum) a x =
        diff1 dx (muProductAt dx phi i p) a x + diff1 dx (fun x => (ps.map fun p => muProductAt dx phi i p x).sum) a x := by
      intro i x
      simp only [diff1, List.map_cons, List.sum_cons]
      ring
    simp only [lin, mul_add, Finset.sum_add_distrib]
    rw [ih, add_zero]
    obtain ⟨c, l⟩ := p
    match l with
    | [some j, some k] =>
      have e : ∀ i x, diff1 dx (muProductAt dx phi i (c, [some j, some k])) a x =
          -c * ((if i = j then diff1 dx (lap dx (phi k)) a x else 0) + if i = k then diff1 dx (lap dx (phi j)) a x else 0) := by
        intro i x
        simp only [diff1, muProductAt]
        split_ifs <;> ring
      have e2 : ∀ x, ∑ i, -phi i x * diff1 dx (muProductAt dx phi i (c, [some j, some k])) a x =
          c * (phi j x * diff1 dx (lap dx (phi k)) a x + phi k x * diff1 dx (lap dx (phi j)) a x) := by
        intro x
        simp only [e]
        have : ∀ i, -phi i x * (-c * ((if i = j then diff1 dx (lap dx (phi k)) a x else 0) +
            if i = k then diff1 dx (lap dx (phi j)) a x else 0)) =
            (if i = j then c * (phi j x * diff1 dx (lap dx (phi k)) a x) else 0) +
              if i = k then c * (phi k x * diff1 dx (lap dx (phi j)) a x) else 0 := by
          intro i
          split_ifs with h1 h2 h2 <;> (try subst h1) <;> (try subst h2) <;> ring
        simp only [this, Finset.sum_add_distrib, Finset.sum_ite_eq', Finset.mem_univ, if_true]
        ring
      simp only [e2, ← Finset.mul_sum, Finset.sum_add_distrib]
      have h : ∑ x, phi k x * diff1 dx (lap dx (phi j)) a x = -∑ x, phi j x * diff1 dx (lap dx (phi k)) a x := by
        rw [sum_mul_diff1]
        congr 1
        rw [sum_mul_lap]
        refine Finset.sum_congr rfl fun x _ => ?_
        rw [← diff1_lap, mul_comm]
      rw [h, add_neg_cancel, mul_zero]
    | [] => simp [muProductAt, diff1]
    | [_] => simp [muProductAt, diff1]
    | [none, _] => simp [muProductAt, diff1]
    | [some _, none] => simp [muProductAt, diff1]
    | _ :: _ :: _ :: _ => simp [muProductAt, diff1]

end Momentum

/-- The energy `phi ^ 4` of one phase without gradients -/
noncomputable def quartic : ExpandedEnergy ℚ 1 := ⟨MvPolynomial.X 0 ^ 4, [], false⟩

theorem muKernel_quartic (phi : Fin 1 → Cell size → ℚ) : muKernel 1 quartic phi = fun _ x => 4 * phi 0 x ^ 3 := by
  funext i x
  fin_cases i
  simp [muKernel, muBulkAt, quartic]

/-- **C88 (chemical potentials of the bulk).** The force from the chemical potentials of the bulk does add momentum: on a ring of three
cells the total is not zero. -/
theorem C88_mu_bulk_wrong : ∃ phi : Fin 1 → Cell (fun _ : Fin 1 => 3) → ℚ,
    Spec.total (forceUsingMu 1 phi (muKernel 1 quartic phi) 0) ≠ 0 := by
  refine ⟨fun _ x => ((x 0).val : ℚ) + 1, ?_⟩
  rw [muKernel_quartic]
  decide +kernel

/-- **C88 (one phase everywhere).** In a uniform state both forces vanish. -/
theorem C88_uniform_force (dx : K) (F : ExpandedEnergy K n) (phi : Fin n → Cell size → K) (hphi : ∀ i x y, phi i x = phi i y)
    (a : Fin D) (x : Cell size) : forceUsingMu dx phi (muKernel dx F phi) a x = 0 ∧
      ∀ bulk P, pressureKernel dx F phi none bulk = .ok P → forceUsingPressure dx P none none a x = 0 := by
  have hd : ∀ f : Cell size → K, (∀ x y, f x = f y) → ∀ b y, diff1 dx f b y = 0 := by
    intro f hf b y
    rw [diff1, hf _ (neighbor y b (-1)), sub_self, zero_div]
  have hl : ∀ i y, lap dx (phi i) y = 0 := by
    intro i y
    refine Finset.sum_eq_zero fun b _ => ?_
    rw [diff2, hphi i (neighbor y b 1) y, hphi i (neighbor y b (-1)) y]
    ring
  have hfun : ∀ x y : Cell size, (fun j => phi j x) = fun j => phi j y := fun x y => funext fun j => hphi j x y
  constructor
  · unfold forceUsingMu
    refine Finset.sum_eq_zero fun i _ => ?_
    rw [hd, mul_zero]
    intro y z
    unfold muKernel muBulkAt
    rw [hfun y z]
    congr 2
    refine List.map_congr_left fun p _ => ?_
    unfold muProductAt
    split <;> simp [hl]
  · intro bulk P h
    unfold pressureKernel at h
    split at h
    · cases h
    · cases h
      unfold forceUsingPressure
      simp only [add_zero, neg_eq_zero]
      refine Finset.sum_eq_zero fun b _ => hd _ ?_ _ _
      intro y z
      have e : ∀ i j, interfaceTermAt dx (phi i) (phi j) b a y = interfaceTermAt dx (phi i) (phi j) b a z := by
        intro i j
        have d1 : ∀ i c y, diff1 dx (phi i) c y = 0 := fun i => hd _ (hphi i)
        have d2 : ∀ i c y, diff2 dx (phi i) c y = 0 := by
          intro i c y
          rw [diff2, hphi i (neighbor y c 1) y, hphi i (neighbor y c (-1)) y]
          ring
        simp only [interfaceTermAt, d1, d2]
        simp
      simp only [e]
      congr 1
      split_ifs
      · unfold pressureBulkAt
        simp only [Option.getD_none, muBulkAt, hphi _ y z]
      · rfl
      · rfl

/-- **C88 (pressure of one phase).** In a uniform state there is no pressure of the interface; that of the bulk is the same along all axes and,
for an energy that is homogeneous of degree `k`, equals `k - 1` times the energy. -/
theorem C88_pressure_uniform (dx : K) (F : ExpandedEnergy K n) (phi : Fin n → Cell size → K) (hphi : ∀ i x y, phi i x = phi i y) (k : ℕ)
    (hF : F.bulk.IsHomogeneous k) (bulk : Bool) (P : Fin D → Fin D → Cell size → K) (h : pressureKernel dx F phi none bulk = .ok P)
    (a b : Fin D) (x : Cell size) :
    P a b x = if bulk = true ∧ a = b then ((k : K) - 1) * MvPolynomial.eval (fun j => phi j x) F.bulk else 0 := by
  have d1 : ∀ i c y, diff1 dx (phi i) c y = 0 := by
    intro i c y
    rw [diff1, hphi i _ (neighbor y c (-1)), sub_self, zero_div]
  have d2 : ∀ i c y, diff2 dx (phi i) c y = 0 := by
    intro i c y
    rw [diff2, hphi i (neighbor y c 1) y, hphi i (neighbor y c (-1)) y]
    ring
  have euler : ∑ i, phi i x * MvPolynomial.eval (fun j => phi j x) (MvPolynomial.pderiv i F.bulk) =
      k * MvPolynomial.eval (fun j => phi j x) F.bulk := by
    have e := congrArg (MvPolynomial.eval fun j => phi j x) hF.sum_X_mul_pderiv
    simpa using e
  unfold pressureKernel at h
  split at h
  · cases h
  · cases h
    have e : ∀ i j, interfaceTermAt dx (phi i) (phi j) a b x = 0 := by
      intro i j
      simp [interfaceTermAt, d1, d2]
    simp only [e, zero_mul, Finset.sum_const_zero, zero_add]
    cases bulk
    · simp
    · by_cases hab : a = b
      · simp only [hab, and_self, if_true, pressureBulkAt, Option.getD_none, muBulkAt, euler]
        ring
      · simp [hab]

/-- Two phases with the energies `phi ^ 4` -/
noncomputable def quartics : ExpandedEnergy ℚ 2 := ⟨MvPolynomial.X 0 ^ 4 + MvPolynomial.X 1 ^ 4, [], true⟩

/-- The hypotheses are met by the sum of fourth powers and the concentrations 2: the pressure is 96. -/
example : quartics.bulk.IsHomogeneous 4 ∧ ∃ P, pressureKernel 1 quartics (fun _ (_ : Cell (fun _ : Fin 2 => 3)) => 2) none true = .ok P ∧
    ∀ x, P 0 0 x = 96 ∧ P 0 1 x = 0 := by
  have hq : quartics.bulk.IsHomogeneous 4 := by
    have h : ∀ i : Fin 2, ((MvPolynomial.X i : MvPolynomial (Fin 2) ℚ) ^ 4).IsHomogeneous 4 := fun i => by
      simpa using (MvPolynomial.isHomogeneous_X ℚ i).pow 4
    exact (h 0).add (h 1)
  refine ⟨hq, _, rfl, fun x => ?_⟩
  constructor
  · refine (C88_pressure_uniform 1 quartics _ (fun _ _ _ => rfl) 4 hq true _ rfl 0 0 x).trans ?_
    norm_num [quartics]
  · refine (C88_pressure_uniform 1 quartics _ (fun _ _ _ => rfl) 4 hq true _ rfl 0 1 x).trans ?_
    simp

/-- **C88 (direction of the force).** An isotropic pressure pushes towards the lower pressure: the force is minus its gradient. -/
theorem C88_pressure_force (dx : K) (p : Cell size → K) (b : Fin D) (x : Cell size) :
    forceUsingPressure dx (fun a b y => if a = b then p y else 0) none none b x = -diff1 dx p b x := by
  unfold forceUsingPressure
  simp only [add_zero]
  rw [Finset.sum_eq_single b]
  · simp [diff1]
  · intro a _ hab
    simp [diff1, hab]
  · simp

example : forceUsingPressure 1 (fun a b (y : Cell (fun _ : Fin 2 => 5)) => if a = b then ((y 0).val : ℚ) else 0) none none 0 (fun _ => 1) = -1 := by
  rw [C88_pressure_force]
  decide +kernel

theorem lookup_of_mem {α β : Type} [BEq α] [LawfulBEq α] {l : List (α × β)} (hn : (l.map Prod.fst).Nodup) {e : α × β} (he : e ∈ l) :
    l.lookup e.1 = some e.2 := by
  induction l with
  | nil => cases he
  | cons b l ih =>
    rw [List.map_cons, List.nodup_cons] at hn
    rcases List.mem_cons.1 he with rfl | he
    · rw [List.lookup_cons]
      simp
    · have : e.1 ≠ b.1 := fun h => hn.1 (h ▸ List.mem_map_of_mem he)
      rw [List.lookup_cons, beq_false_of_ne this]
      exact ih hn.2 he

theorem find_of_mem {α β : Type} [DecidableEq β] {l : List (α × β)} (hn : (l.map Prod.snd).Nodup) {e : α × β} (he : e ∈ l) :
    (l.find? fun x => x.2 == e.2) = some e := by
  induction l with
  | nil => cases he
  | cons b l ih =>
    rw [List.map_cons, List.nodup_cons] at hn
    rcases List.mem_cons.1 he with rfl | he
    · simp
    · have : b.2 ≠ e.2 := fun h => hn.1 (h ▸ List.mem_map_of_mem he)
      rw [List.find?_cons, beq_false_of_ne this]
      exact ih hn.2 he

/-- **C88 (storing the tensor).** Of a symmetric tensor every entry that is read is the one that was computed. -/
theorem C88_store (P : Fin D → Fin D → Cell size → K) (hP : ∀ a b, P a b = P b a) (a b : Fin D) (x : Cell size) :
    load (store P) a b x = some (P a b x) := by
  obtain ⟨h1, h2, h3⟩ := C64_linearization D
  have key : ∀ a b : Fin D, a ≤ b → ((symmetricLinearization D).lookup (a.1, b.1)).bind (fun lin => store P lin x) = some (P a b x) := by
    intro a b hab
    obtain ⟨⟨k, lin⟩, he, hk⟩ := List.mem_map.1 ((h2 a.1 b.1).2 ⟨hab, b.2⟩)
    simp only at hk
    subst hk
    have e1 := lookup_of_mem h1 he
    have e2 := find_of_mem (by rw [h3]; exact List.nodup_range) he
    simp only at e1 e2
    rw [e1, Option.bind_some, store, e2, Option.bind_some, dif_pos ⟨a.2, b.2⟩]
  unfold load
  split_ifs with h
  · exact key a b h.le
  · rw [key b a (not_lt.1 h), hP]

/-- **C88 (storing the pressure tensor).** The tensor of the kernel is symmetric, hence the force is computed from its entries. -/
theorem C88_pressure_symmetric (dx : K) (F : ExpandedEnergy K n) (phi : Fin n → Cell size → K) (mu : Option (Fin n → Cell size → K))
    (bulk : Bool) (P : Fin D → Fin D → Cell size → K) (h : pressureKernel dx F phi mu bulk = .ok P) (a b : Fin D) : P a b = P b a := by
  unfold pressureKernel at h
  split at h
  · cases h
  · cases h
    funext x
    refine congrArg₂ (· + ·) ?_ ?_
    · refine Finset.sum_congr rfl fun i _ => Finset.sum_congr rfl fun j _ => ?_
      refine congrArg (· * _) ?_
      unfold interfaceTermAt
      by_cases hab : a = b
      · subst hab; rfl
      · rw [if_neg hab, if_neg (Ne.symm hab)]
        ring
    · by_cases hab : a = b
      · subst hab; rfl
      · rw [if_neg hab, if_neg (Ne.symm hab)]

/-! ## Cahn-Hilliard equation -/

theorem advection_eq (dx : K) (phi : Cell size → K) (u : Fin D → Cell size → K) (x : Cell size) :
    advection dx phi u x = ∑ a, diff1 dx (fun y => phi y * u a y) a x := by
  unfold advection diff1
  rw [Finset.sum_div]
  refine Finset.sum_congr rfl fun a _ => ?_
  rw [← sub_div, div_div]
  ring

theorem diffusion_eq (dx mobility : K) (mu : Cell size → K) (x : Cell size) : diffusion dx mobility mu x = mobility * lap dx mu x := by
  unfold diffusion lap diff2
  rw [Finset.mul_sum, Finset.sum_div]
  exact Finset.sum_congr rfl fun a _ => by ring

section Conservation

variable [∀ a, NeZero (size a)]

theorem sum_lap (dx : K) (f : Cell size → K) : ∑ x, lap dx f x = 0 := by
  unfold lap diff2
  rw [Finset.sum_comm]
  refine Finset.sum_eq_zero fun a _ => ?_
  rw [← Finset.sum_div, Finset.sum_add_distrib, Finset.sum_sub_distrib, sum_neighbor, sum_neighbor, ← Finset.mul_sum]
  ring

/-- **C88 (conservation).** One step conserves the amount of the phase, for all chemical potentials, velocities, mobilities and step
sizes. -/
theorem C88_mass (dx dt mobility : K) (phi mu : Cell size → K) (u : Fin D → Cell size → K) :
    Spec.total (cahnHilliardEq dx dt mobility phi mu u) = Spec.total phi := by
  unfold Spec.total cahnHilliardEq
  simp only [advection_eq, diffusion_eq]
  rw [Finset.sum_add_distrib, ← Finset.mul_sum, Finset.sum_add_distrib, Finset.sum_neg_distrib, Finset.sum_comm, ← Finset.mul_sum, sum_lap]
  simp only [sum_diff1]
  simp

/-- Several steps, the chemical potentials and the velocity being set anew before each of them -/
def run (dx dt : K) (mobilities : K ⊕ List K) (phi : Fin n → Cell size → K) :
    List ((Fin n → Cell size → K) × (Fin D → Cell size → K)) → Except PyErr (Fin n → Cell size → K)
  | [] => .ok phi
  | s :: l => (timeStep dx dt mobilities s.1 s.2 phi).bind fun phi' => run dx dt mobilities phi' l

/-- **C88 (conservation over a run).** However long the run, every phase is conserved. -/
theorem C88_run (dx dt : K) (mobilities : K ⊕ List K) (l : List ((Fin n → Cell size → K) × (Fin D → Cell size → K)))
    (phi phi' : Fin n → Cell size → K) (h : run dx dt mobilities phi l = .ok phi') (i : Fin n) :
    Spec.total (phi' i) = Spec.total (phi i) := by
  induction l generalizing phi with
  | nil => cases h; rfl
  | cons s l ih =>
    rw [run] at h
    unfold timeStep at h
    cases hm : mobilityOf n mobilities with
    | error e => rw [hm] at h; cases h
    | ok m =>
      rw [hm] at h
      rw [ih _ h]
      exact C88_mass dx dt (m i) (phi i) (s.1 i) s.2

/-- **C88 (mobilities).** A run succeeds exactly if it is given no steps, one mobility for all phases, or one for each of them. -/
theorem C88_mobilities (dx dt : K) (mobilities : K ⊕ List K) (l : List ((Fin n → Cell size → K) × (Fin D → Cell size → K)))
    (phi : Fin n → Cell size → K) :
    (∃ phi', run dx dt mobilities phi l = .ok phi') ↔ l = [] ∨ ∀ ms, mobilities = .inr ms → n ≤ ms.length := by
  induction l generalizing phi with
  | nil => simp [run]
  | cons s l ih =>
    simp only [run, timeStep, reduceCtorEq, false_or]
    cases mobilities with
    | inl m =>
      simp only [mobilityOf, Except.map, Except.bind, reduceCtorEq, false_imp_iff, implies_true, iff_true]
      rw [ih]
      simp
    | inr ms =>
      simp only [mobilityOf]
      split_ifs with h
      · simp only [Except.map, Except.bind]
        rw [ih]
        simp [h]
      · simp [Except.map, Except.bind, h]

/-- **C88 (missing mobilities).** With too few mobilities the first step is an `IndexError`. -/
theorem C88_mobilities_error (dx dt : K) (ms : List K) (hms : ms.length < n) (s : (Fin n → Cell size → K) × (Fin D → Cell size → K))
    (l : List ((Fin n → Cell size → K) × (Fin D → Cell size → K))) (phi : Fin n → Cell size → K) :
    run dx dt (.inr ms) phi (s :: l) = .error .indexError := by
  simp [run, timeStep, mobilityOf, Except.map, Except.bind, Nat.not_le.2 hms]

example : run 1 1 (.inr [1]) (fun (_ : Fin 2) (_ : Cell (fun _ : Fin 1 => 3)) => (0 : ℚ)) [(fun _ _ => 0, fun _ _ => 0)] = .error .indexError :=
  C88_mobilities_error 1 1 [1] (by decide) _ _ _

/-- The energy a step takes out of the system at rest, to first order in the step -/
theorem C88_dissipation_eq (dx dt mobility : K) (phi mu : Cell size → K) :
    ∑ x, mu x * (cahnHilliardEq dx dt mobility phi mu (fun _ _ => 0) x - phi x) = -(dt * mobility / dx ^ 2) * Spec.roughness mu := by
  have adv : ∀ x, advection dx phi (fun _ _ => 0) x = 0 := by
    intro x
    rw [advection_eq]
    simp [diff1]
  have e : ∀ x, mu x * (cahnHilliardEq dx dt mobility phi mu (fun _ _ => 0) x - phi x) = dt * mobility * (mu x * lap dx mu x) := by
    intro x
    simp only [cahnHilliardEq, adv, diffusion_eq]
    ring
  simp only [e, ← Finset.mul_sum]
  have key : ∑ x, mu x * lap dx mu x = -(1 / dx ^ 2) * Spec.roughness mu := by
    unfold lap Spec.roughness
    simp only [Finset.mul_sum]
    rw [Finset.sum_comm, Finset.sum_comm (s := (Finset.univ : Finset (Cell size)))]
    refine Finset.sum_congr rfl fun a _ => ?_
    rw [← Finset.mul_sum]
    have h1 := sum_mul_neighbor mu mu a
    have h2 := sum_neighbor (fun x => mu x ^ 2) a 1
    have e1 : ∀ x, mu x * diff2 dx mu a x = (mu x * mu (neighbor x a 1) - 2 * mu x ^ 2 + mu (neighbor x a (-1)) * mu x) * (1 / dx ^ 2) := by
      intro x
      unfold diff2
      ring
    have e2 : ∀ x, (mu (neighbor x a 1) - mu x) ^ 2 = mu (neighbor x a 1) ^ 2 - 2 * (mu x * mu (neighbor x a 1)) + mu x ^ 2 := fun x => by ring
    simp only [e1, e2]
    rw [← Finset.sum_mul]
    simp only [Finset.sum_add_distrib, Finset.sum_sub_distrib, ← Finset.mul_sum]
    rw [← h1, h2]
    ring
  rw [key]
  ring

/-- **C88 (dissipation).** Without flow the chemical potential never gains from a step: with non-negative mobility the sum of chemical
potential times change of concentration is not positive, and it is zero only if the chemical potential does not vary (or nothing moves). -/
theorem C88_dissipation [LinearOrder K] [IsStrictOrderedRing K] (dx dt mobility : K) (hdx : dx ≠ 0) (hdt : 0 < dt) (hm : 0 < mobility)
    (phi mu : Cell size → K) :
    ∑ x, mu x * (cahnHilliardEq dx dt mobility phi mu (fun _ _ => 0) x - phi x) ≤ 0 ∧
      (∑ x, mu x * (cahnHilliardEq dx dt mobility phi mu (fun _ _ => 0) x - phi x) = 0 ↔ ∀ x a, mu (neighbor x a 1) = mu x) := by
  have hc : 0 < dt * mobility / dx ^ 2 := by positivity
  have hr : 0 ≤ Spec.roughness mu := Finset.sum_nonneg fun x _ => Finset.sum_nonneg fun a _ => sq_nonneg _
  rw [C88_dissipation_eq]
  refine ⟨by nlinarith, ?_⟩
  rw [mul_eq_zero, neg_eq_zero, or_iff_right hc.ne']
  unfold Spec.roughness
  rw [Finset.sum_eq_zero_iff_of_nonneg fun x _ => Finset.sum_nonneg fun a _ => sq_nonneg _]
  simp only [Finset.mem_univ, true_implies]
  refine forall_congr' fun x => ?_
  rw [Finset.sum_eq_zero_iff_of_nonneg fun a _ => sq_nonneg _]
  simp only [Finset.mem_univ, true_implies, pow_eq_zero_iff two_ne_zero, sub_eq_zero]

end Conservation

/-- **C88 (sum of the phases).** If the concentrations add up to one, the sum after a step differs from one by what the divergence of the
velocity and the sum of the chemical potentials, weighted with the mobilities, produce. -/
theorem C88_sum (dx dt : K) (m : Fin n → K) (phi mu : Fin n → Cell size → K) (u : Fin D → Cell size → K)
    (h : ∀ x, ∑ i, phi i x = 1) (x : Cell size) :
    ∑ i, cahnHilliardEq dx dt (m i) (phi i) (mu i) u x =
      1 + dt * (-∑ a, diff1 dx (u a) a x + lap dx (fun y => ∑ i, m i * mu i y) x) := by
  unfold cahnHilliardEq
  simp only [advection_eq, diffusion_eq]
  rw [Finset.sum_add_distrib, h, ← Finset.mul_sum, Finset.sum_add_distrib, Finset.sum_neg_distrib, Finset.sum_comm]
  have e1 : ∀ a, ∑ i, diff1 dx (fun y => phi i y * u a y) a x = diff1 dx (u a) a x := by
    intro a
    unfold diff1
    rw [← Finset.sum_div, Finset.sum_sub_distrib, ← Finset.sum_mul, ← Finset.sum_mul, h, h, one_mul, one_mul]
  have e2 : ∑ i, m i * lap dx (mu i) x = lap dx (fun y => ∑ i, m i * mu i y) x := by
    unfold lap diff2
    simp only [Finset.mul_sum]
    rw [Finset.sum_comm]
    refine Finset.sum_congr rfl fun a _ => ?_
    rw [← Finset.sum_sub_distrib, ← Finset.sum_add_distrib, Finset.sum_div]
    exact Finset.sum_congr rfl fun i _ => by ring
  simp only [e1, e2]

/-- **C88 (sum preserved).** In a divergence free flow, with the weighted chemical potentials adding up to the same everywhere, the sum stays one. -/
theorem C88_sum_preserved (dx dt : K) (m : Fin n → K) (phi mu : Fin n → Cell size → K) (u : Fin D → Cell size → K)
    (h : ∀ x, ∑ i, phi i x = 1) (hu : Spec.DivergenceFree dx u) (c : K) (hmu : ∀ x, ∑ i, m i * mu i x = c) (x : Cell size) :
    ∑ i, cahnHilliardEq dx dt (m i) (phi i) (mu i) u x = 1 := by
  rw [C88_sum dx dt m phi mu u h, hu x]
  simp only [hmu, lap, diff2]
  have : (c - 2 * c + c) / dx ^ 2 = 0 := by ring
  rw [this]
  simp

/-- **C88 (uniform state).** A uniform state stays as it is in a divergence free flow. -/
theorem C88_uniform (dx dt mobility p q : K) (u : Fin D → Cell size → K) (hu : Spec.DivergenceFree dx u) (x : Cell size) :
    cahnHilliardEq dx dt mobility (fun _ => p) (fun _ => q) u x = p := by
  unfold cahnHilliardEq
  rw [advection_eq, diffusion_eq]
  have e1 : ∑ a, diff1 dx (fun y => p * u a y) a x = p * ∑ a, diff1 dx (u a) a x := by
    rw [Finset.mul_sum]
    exact Finset.sum_congr rfl fun a _ => by unfold diff1; ring
  have e2 : ∀ a : Fin D, diff2 dx (fun _ : Cell size => q) a x = 0 := fun a => by unfold diff2; ring
  rw [e1, hu x]
  simp [lap, e2]

/-- A step on a ring of four cells that is not trivial, yet conserves the phase. -/
example : let phi : Cell (fun _ : Fin 1 => 4) → ℚ := fun x => if x = 0 then 1 else 0
    let step := cahnHilliardEq 1 (1 / 10) 1 phi phi (fun _ _ => 1 / 2)
    step ≠ phi ∧ step 0 = 4 / 5 ∧ Spec.total step = 1 := by
  refine ⟨fun h => ?_, by decide +kernel, ?_⟩
  · exact absurd (congrFun h 0) (by decide +kernel)
  · rw [C88_mass]
    decide +kernel

/-- The hypothesis of the sum is met by two phases with opposite chemical potentials. -/
example (dx dt : ℚ) (phi mu : Cell (fun _ : Fin 2 => 5) → ℚ) (x : Cell (fun _ : Fin 2 => 5)) :
    ∑ i : Fin 2, cahnHilliardEq dx dt 3 (![phi, fun y => 1 - phi y] i) (![mu, fun y => -mu y] i) (fun _ _ => 1 / 7) x = 1 :=
  C88_sum_preserved dx dt (fun _ => 3) ![phi, fun y => 1 - phi y] ![mu, fun y => -mu y] _ (fun y => by simp [Fin.sum_univ_two])
    (fun y => by simp [diff1]) 0 (fun y => by simp [Fin.sum_univ_two]) x

end PhaseKernels
end Lbm
