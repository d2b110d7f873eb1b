import Verif.Nestler
import Verif.Props.PhaseFieldRun
import Verif.Props.SimplexProjection
import Verif.Props.AllenCahn

/-!
# Property C92: the multi-phase model with penalty and simplex projection
-/

namespace Lbm
namespace Nestler

open GhostLayers
open PhaseFieldRun (Values op_mk_mem op_mk_not_mem add_zero_torus sub_torus toValues_fin step_append mem_around mem_centre sum_moved zero_mem_box)
open PhaseFieldRun.Model (toValues)

variable {K : Type} [Field K] {D Q n : ℕ} {size : Fin D → ℕ}

/-! ## Specification -/

namespace Spec

open GhostLayers.Spec

/-- A weighted sum over the cells around a cell of the grid -/
def around (r : ℕ) (w : Vec D → K) (f : Torus size → K) (x : Torus size) : K := ((box D r).map fun o => w o * f (x + toTorus size o)).sum

/-- The coefficient of a pair of phases -/
def pair (d : List ((ℕ × ℕ) × K)) (i j : Fin n) : K := entry d (max i j : Fin n) (min i j : Fin n)

/-- The sum of the products of all pairs of phases without `i` -/
def pairs (c : Fin n → K) (i : Fin n) : K := ∑ j, ∑ k, if k < j ∧ j ≠ i ∧ k ≠ i then c j * c k else 0

/-- The derivative of the free energy of the bulk by one order parameter -/
def slope (P : Args K) (c : Fin n → K) (i : Fin n) : K :=
  (∑ j, if j = i then 0 else c i * c j ^ 2 / (2 * pair P.coeffA i j)) + P.gabd * pairs c i - 2 * P.penaltyFactor * (1 - ∑ j, c j)

/-- The equilibrium of an order parameter `c` with chemical potential `mu` and velocity `v`; the first direction is that of populations at rest and
has what is missing to `c`. -/
def equilibrium (dirs : Fin Q → Vec D) (w : Fin Q → K) (c mu : K) (v : Fin D → K) (q : Fin Q) : K :=
  let cv := ∑ a, (dirs q a : K) * v a
  w q * (3 * mu + 3 * c * cv + c * (9 / 2 * cv ^ 2 - 3 / 2 * ∑ a, v a ^ 2)) + if q.1 = 0 then c - 3 * mu else 0

/-- One time step in terms of the fields on the periodic grid: chemical potentials of the order parameters at the beginning of the step, the force of
these, flow with this force, velocity of the new populations, and populations of the order parameters for the new velocity. -/
structure Step (M : Model K D Q) (n : ℕ) (T T' : Arr → Torus size → Values K) : Prop where
  mu : ∀ (i : Fin n) x, T' (.mu i) x 0 = potential M.args (around 1 M.laplacian) (fun (j : Fin n) y => T (.phi j) y 0) i x
  force : ∀ x (b : Fin D), T' .force x b = ∑ i : Fin n, -T (.phi i) x 0 * around 2 (M.gradient b) (fun y => T' (.mu i) y 0) x
  hydro : ∀ x (q : Fin Q), T' .hydro x q = M.collide (fun a => T' .force (x - toTorus size (M.directions q)) a)
    (fun q' => T .hydro (x - toTorus size (M.directions q)) q') q
  density : ∀ x, T' .density x 0 = ∑ q : Fin Q, T' .hydro x q
  velocity : ∀ x (a : Fin D), T' .velocity x a = (∑ q : Fin Q, T' .hydro x q * (M.directions q a : K)) / ∑ q : Fin Q, T' .hydro x q
  pdfs : ∀ i < n, ∀ x (q : Fin Q), T' (.ch i) x q = M.chCollide (T (.phi i) (x - toTorus size (M.directions q)) 0)
    (T' (.mu i) (x - toTorus size (M.directions q)) 0) (fun a => T' .velocity (x - toTorus size (M.directions q)) a)
    (fun q' => T (.ch i) (x - toTorus size (M.directions q)) q') q
  phi : ∀ i < n, ∀ x, T' (.phi i) x 0 = ∑ q : Fin Q, T' (.ch i) x q

end Spec

/-! ## Locality -/

variable (M : Model K D Q)

theorem weighted_congr (r : ℕ) (w f f' : Vec D → K) (h : ∀ o ∈ box D r, f o = f' o) : weighted r w f = weighted r w f' := by
  unfold weighted
  congr 1
  exact List.map_congr_left fun o ho => by rw [h o ho]

theorem streamed_congr (hc : ∀ q, layers (M.directions q) ≤ 1) {w w' : Arr → Vec D → Values K} {a : Arr} (h : ∀ o ∈ box D 1, w a o = w' a o) :
    M.streamed w a = M.streamed w' a := by
  funext q
  unfold Model.streamed
  rw [h]
  rw [C90_box]
  refine le_trans (le_of_eq ?_) (hc q)
  simp [layers]

theorem potential_congr {X Y : Type} (P : Args K) (l : (X → K) → X → K) (l' : (Y → K) → Y → K) (c : Fin n → X → K) (c' : Fin n → Y → K) (x : X) (y : Y)
    (h : ∀ i, c i x = c' i y) (hl : ∀ i, l (c i) x = l' (c' i) y) (i : Fin n) : potential P l c i x = potential P l' c' i y := by
  unfold potential interfacial
  simp only [h, hl]

theorem local_mu : GhostLayers.Spec.Local (⟨around 1 (all n .phi), all n .mu, none, M.fns n .mu⟩ : Kernel Arr (Values K) D) := by
  intro w w' h a ha
  obtain ⟨i, hi, rfl⟩ := mem_all.1 ha
  have hw : ∀ j : Fin n, ∀ o ∈ box D 1, w (.phi j) o = w' (.phi j) o := fun j o ho => h (.phi j, o) (mem_around.2 ⟨mem_all.2 ⟨j, j.2, rfl⟩, ho⟩)
  funext k
  simp only [Model.fns, dif_pos hi]
  refine potential_congr _ _ _ _ _ _ _ (fun j => by rw [hw j 0 (zero_mem_box 1)]) (fun j => ?_) _
  exact weighted_congr _ _ _ _ fun o ho => by rw [hw j o ho]

theorem local_force : GhostLayers.Spec.Local (⟨around 2 (all n .mu) ++ centre (all n .phi), [.force], none, M.fns n .force⟩ : Kernel Arr (Values K) D) := by
  intro w w' h a ha
  rw [List.mem_singleton] at ha
  subst ha
  have h1 : ∀ j : Fin n, ∀ o ∈ box D 2, w (.mu j) o = w' (.mu j) o := fun j o ho =>
    h (.mu j, o) (List.mem_append_left _ (mem_around.2 ⟨mem_all.2 ⟨j, j.2, rfl⟩, ho⟩))
  have h2 : ∀ i : Fin n, w (.phi i) 0 = w' (.phi i) 0 := fun i =>
    h (.phi i, 0) (List.mem_append_right _ (mem_centre.2 ⟨mem_all.2 ⟨i, i.2, rfl⟩, rfl⟩))
  simp only [Model.fns]
  congr 1
  funext b
  refine Finset.sum_congr rfl fun i _ => ?_
  rw [h2, weighted_congr 2 _ _ (fun o => w' (.mu i) o 0) fun o ho => by rw [h1 i o ho]]

theorem local_centre (name : Krn) (reads writes : List Arr)
    (h : ∀ w w' : Arr → Vec D → Values K, (∀ a ∈ reads, w a 0 = w' a 0) → ∀ a ∈ writes, M.fns n name w a = M.fns n name w' a) :
    GhostLayers.Spec.Local (⟨centre reads, writes, none, M.fns n name⟩ : Kernel Arr (Values K) D) :=
  fun w w' hw a ha => h w w' (fun b hb => hw (b, 0) (mem_centre.2 ⟨hb, rfl⟩)) a ha

theorem local_stream (hc : ∀ q, layers (M.directions q) ≤ 1) :
    GhostLayers.Spec.Local (⟨around 1 [.hydro], [.hydroTmp, .density, .velocity], none, M.fns n .stream⟩ : Kernel Arr (Values K) D) := by
  intro w w' h a ha
  have h1 := streamed_congr M hc (a := .hydro) fun o ho => h (.hydro, o) (mem_around.2 ⟨by simp, ho⟩)
  simp only [List.mem_cons, List.not_mem_nil, or_false] at ha
  rcases ha with rfl | rfl | rfl <;> simp only [Model.fns, h1]

theorem local_chStream (hc : ∀ q, layers (M.directions q) ≤ 1) (i : ℕ) :
    GhostLayers.Spec.Local (⟨around 1 [.ch i], [.chTmp i], none, M.fns n (.chStream i)⟩ : Kernel Arr (Values K) D) := by
  intro w w' h a ha
  have h1 := streamed_congr M hc (a := .ch i) fun o ho => h (.ch i, o) (mem_around.2 ⟨by simp, ho⟩)
  rw [List.mem_singleton] at ha
  subst ha
  simp only [Model.fns, h1]

/-- The parts before the order parameters -/
noncomputable def prelude (n : ℕ) : List (Op Arr (Values K) D) :=
  [.sync (all n .phi),
   mk (M.fns n) .mu (around 1 (all n .phi)) (all n .mu),
   .sync (all n .mu),
   mk (M.fns n) .force (around 2 (all n .mu) ++ centre (all n .phi)) [.force],
   mk (M.fns n) .collide (centre [.hydro, .force]) [.hydro],
   .sync [.hydro],
   mk (M.fns n) .stream (around 1 [.hydro]) [.hydroTmp, .density, .velocity],
   .swap .hydro .hydroTmp,
   mk (M.fns n) .getter (centre [.hydro]) [.density, .velocity]]

/-- The parts of one order parameter -/
noncomputable def chPart (n i : ℕ) : List (Op Arr (Values K) D) :=
  [mk (M.fns n) (.chCollide i) (centre [.ch i, .phi i, .mu i, .velocity]) [.ch i],
   .sync [.ch i],
   mk (M.fns n) (.chStream i) (around 1 [.ch i]) [.chTmp i],
   .swap (.ch i) (.chTmp i),
   mk (M.fns n) (.chGetter i) (centre [.ch i]) [.phi i]]

theorem nestlerStep_eq : (nestlerStep (M.fns n) n false : List (Op Arr (Values K) D)) = prelude M n ++ (List.range n).flatMap (chPart M n) :=
  List.append_nil _

theorem allLocal (hc : ∀ q, layers (M.directions q) ≤ 1) : GhostLayers.Spec.AllLocal (nestlerStep (M.fns n) n false : List (Op Arr (Values K) D)) := by
  rw [nestlerStep_eq]
  intro k hk
  rcases List.mem_append.1 hk with hk | hk
  · simp only [prelude, List.mem_cons, List.not_mem_nil, or_false, reduceCtorEq, false_or, mk, Op.kernel.injEq] at hk
    rcases hk with rfl | rfl | rfl | rfl | rfl
    · exact local_mu M
    · exact local_force M
    · refine local_centre M _ _ _ fun w w' h a ha => ?_
      rw [List.mem_singleton] at ha
      subst ha
      simp only [Model.fns, h .hydro (by simp), h .force (by simp)]
    · exact local_stream M hc
    · refine local_centre M _ _ _ fun w w' h a ha => ?_
      simp only [List.mem_cons, List.not_mem_nil, or_false] at ha
      rcases ha with rfl | rfl <;> simp only [Model.fns, h .hydro (by simp)]
  · rw [List.mem_flatMap] at hk
    obtain ⟨i, -, hk⟩ := hk
    simp only [chPart, List.mem_cons, List.not_mem_nil, or_false, reduceCtorEq, false_or, mk, Op.kernel.injEq] at hk
    rcases hk with rfl | rfl | rfl
    · refine local_centre M _ _ _ fun w w' h a ha => ?_
      rw [List.mem_singleton] at ha
      subst ha
      simp only [Model.fns, h (.ch i) (by simp), h (.phi i) (by simp), h (.mu i) (by simp), h .velocity (by simp)]
    · exact local_chStream M hc i
    · refine local_centre M _ _ _ fun w w' h a ha => ?_
      rw [List.mem_singleton] at ha
      subst ha
      simp only [Model.fns, h (.ch i) (by simp)]

/-! ## What a time step computes -/

section StepSpec

open GhostLayers.Spec (step op toTorus Torus)

variable (T : Arr → Torus size → Values K)

theorem fns_mu (w : Arr → Vec D → Values K) (i : Fin n) :
    M.fns n .mu w (.mu i) = fun _ => potential M.args M.lapl (fun j : Fin n => fun o => w (.phi j) o 0) i 0 := by
  simp only [Model.fns, dif_pos i.2]

theorem fns_force (w : Arr → Vec D → Values K) : M.fns n .force w .force =
    toValues fun b => ∑ i : Fin n, -w (.phi i) 0 0 * weighted 2 (M.gradient b) fun o => w (.mu i) o 0 := rfl

theorem fns_collide (w : Arr → Vec D → Values K) :
    M.fns n .collide w .hydro = toValues (M.collide (fun a => w .force 0 a) fun q => w .hydro 0 q) := rfl

theorem fns_stream (w : Arr → Vec D → Values K) : M.fns n .stream w .hydroTmp = toValues (M.streamed w .hydro) := rfl

theorem fns_density (w : Arr → Vec D → Values K) : M.fns n .getter w .density = fun _ => Model.density fun q : Fin Q => w .hydro 0 q := rfl

theorem fns_velocity (w : Arr → Vec D → Values K) : M.fns n .getter w .velocity = toValues (M.velocity fun q => w .hydro 0 q) := rfl

theorem fns_chCollide (w : Arr → Vec D → Values K) (i : ℕ) : M.fns n (.chCollide i) w (.ch i) =
    toValues (M.chCollide (w (.phi i) 0 0) (w (.mu i) 0 0) (fun a => w .velocity 0 a) fun q => w (.ch i) 0 q) := rfl

theorem fns_chStream (w : Arr → Vec D → Values K) (i : ℕ) : M.fns n (.chStream i) w (.chTmp i) = toValues (M.streamed w (.ch i)) := rfl

theorem fns_chGetter (w : Arr → Vec D → Values K) (i : ℕ) : M.fns n (.chGetter i) w (.phi i) = fun _ => Model.density fun q : Fin Q => w (.ch i) 0 q := rfl

theorem prelude_spec : let T1 := step (prelude M n) T
    (∀ (i : Fin n) x, T1 (.mu i) x 0 = potential M.args (Spec.around 1 M.laplacian) (fun (j : Fin n) y => T (.phi j) y 0) i x) ∧
    (∀ x (b : Fin D), T1 .force x b = ∑ i : Fin n, -T (.phi i) x 0 * Spec.around 2 (M.gradient b) (fun y => T1 (.mu i) y 0) x) ∧
    (∀ x (q : Fin Q), T1 .hydro x q = M.collide (fun a => T1 .force (x - toTorus size (M.directions q)) a)
      (fun q' => T .hydro (x - toTorus size (M.directions q)) q') q) ∧
    (∀ x, T1 .density x 0 = ∑ q : Fin Q, T1 .hydro x q) ∧
    (∀ x (a : Fin D), T1 .velocity x a = (∑ q : Fin Q, T1 .hydro x q * (M.directions q a : K)) / ∑ q : Fin Q, T1 .hydro x q) ∧
    ∀ a, (∀ i, a ≠ .mu i) → a ≠ .force → a ≠ .hydro → a ≠ .hydroTmp → a ≠ .density → a ≠ .velocity → T1 a = T a := by
  obtain ⟨A, hA⟩ : ∃ A : Arr → Torus size → Values K, A = op T (mk (M.fns n) .mu (around 1 (all n .phi)) (all n .mu)) := ⟨_, rfl⟩
  obtain ⟨B, hB⟩ : ∃ B : Arr → Torus size → Values K, B = op A (mk (M.fns n) .force (around 2 (all n .mu) ++ centre (all n .phi)) [.force]) := ⟨_, rfl⟩
  obtain ⟨C, hC⟩ : ∃ C : Arr → Torus size → Values K, C = op B (mk (M.fns n) .collide (centre [.hydro, .force]) [.hydro]) := ⟨_, rfl⟩
  obtain ⟨E, hE⟩ : ∃ E : Arr → Torus size → Values K, E = op C (mk (M.fns n) .stream (around 1 [.hydro]) [.hydroTmp, .density, .velocity]) := ⟨_, rfl⟩
  obtain ⟨F, hF⟩ : ∃ F : Arr → Torus size → Values K, F = swapArrays .hydro .hydroTmp E := ⟨_, rfl⟩
  obtain ⟨G, hG⟩ : ∃ G : Arr → Torus size → Values K, G = op F (mk (M.fns n) .getter (centre [.hydro]) [.density, .velocity]) := ⟨_, rfl⟩
  have e : step (prelude M n) T = G := by
    rw [hG, hF, hE, hC, hB, hA]
    rfl
  rw [e]
  have oA : ∀ a, (∀ i, a ≠ .mu i) → A a = T a := fun a h => by
    rw [hA, op_mk_not_mem]
    rw [mem_all]
    rintro ⟨i, -, hi⟩
    exact h i hi.symm
  have oB : ∀ a, a ≠ .force → B a = A a := fun a h => by rw [hB, op_mk_not_mem _ _ _ _ _ (by simpa using h)]
  have oC : ∀ a, a ≠ .hydro → C a = B a := fun a h => by rw [hC, op_mk_not_mem _ _ _ _ _ (by simpa using h)]
  have oE : ∀ a, a ≠ .hydroTmp → a ≠ .density → a ≠ .velocity → E a = C a := fun a h1 h2 h3 => by
    rw [hE, op_mk_not_mem _ _ _ _ _ (by simp [h1, h2, h3])]
  have oF : ∀ a, a ≠ .hydro → a ≠ .hydroTmp → F a = E a := fun a h1 h2 => by
    rw [hF]
    unfold swapArrays
    rw [if_neg h1, if_neg h2]
  have oG : ∀ a, a ≠ .density → a ≠ .velocity → G a = F a := fun a h1 h2 => by rw [hG, op_mk_not_mem _ _ _ _ _ (by simp [h1, h2])]
  have gmu : ∀ i, G (.mu i) = A (.mu i) := fun i => by
    rw [oG _ (by simp) (by simp), oF _ (by simp) (by simp), oE _ (by simp) (by simp) (by simp), oC _ (by simp), oB _ (by simp)]
  have gforce : G .force = B .force := by
    rw [oG _ (by simp) (by simp), oF _ (by simp) (by simp), oE _ (by simp) (by simp) (by simp), oC _ (by simp)]
  have ghydro : G .hydro = E .hydroTmp := by
    rw [oG _ (by simp) (by simp), hF]
    rfl
  refine ⟨fun i x => ?_, fun x b => ?_, fun x q => ?_, fun x => ?_, fun x a => ?_, fun a h1 h2 h3 h4 h5 h6 => ?_⟩
  · rw [gmu, hA, op_mk_mem _ _ _ _ _ (by simp [mem_all]), fns_mu]
    exact potential_congr M.args M.lapl (Spec.around 1 M.laplacian) (fun (j : Fin n) o => T (.phi j) (x + toTorus size o) 0)
      (fun (j : Fin n) y => T (.phi j) y 0) 0 x (fun j => by rw [add_zero_torus]) (fun j => rfl) i
  · rw [gforce, hB, op_mk_mem _ _ _ _ _ (by simp), fns_force, toValues_fin]
    refine Finset.sum_congr rfl fun i _ => ?_
    rw [add_zero_torus, oA _ (by simp)]
    simp only [gmu]
    rfl
  · rw [ghydro, hE, op_mk_mem _ _ _ _ _ (by simp), fns_stream, toValues_fin]
    unfold Model.streamed
    beta_reduce
    rw [sub_torus, hC, op_mk_mem _ _ _ _ _ (by simp), fns_collide, toValues_fin]
    simp only [add_zero_torus]
    rw [gforce, oB .hydro (by simp), oA .hydro (by simp)]
  · have : G .density x = M.fns n .getter (fun b o => F b (x + toTorus size o)) .density := by
      rw [hG, op_mk_mem _ _ _ _ _ (by simp)]
    rw [this, fns_density, oG .hydro (by simp) (by simp)]
    simp only [add_zero_torus]
    rfl
  · have : G .velocity x = M.fns n .getter (fun b o => F b (x + toTorus size o)) .velocity := by
      rw [hG, op_mk_mem _ _ _ _ _ (by simp)]
    rw [this, fns_velocity, toValues_fin, oG .hydro (by simp) (by simp)]
    simp only [add_zero_torus]
    rfl
  · rw [oG _ h5 h6, oF _ h3 h4, oE _ h4 h5 h6, oC _ h3, oB _ h2, oA _ h1]

theorem chPart_other (i : ℕ) (a : Arr) (h1 : a ≠ .ch i) (h2 : a ≠ .chTmp i) (h3 : a ≠ .phi i) : step (chPart M n i) T a = T a := by
  simp [step, chPart, op, mk, swapArrays, h1, h2, h3]

theorem chPart_pdfs (i : ℕ) (x : Torus size) (q : Fin Q) : step (chPart M n i) T (.ch i) x q =
    M.chCollide (T (.phi i) (x - toTorus size (M.directions q)) 0) (T (.mu i) (x - toTorus size (M.directions q)) 0)
      (fun a => T .velocity (x - toTorus size (M.directions q)) a) (fun q' => T (.ch i) (x - toTorus size (M.directions q)) q') q := by
  have e : step (chPart M n i) T (.ch i) x = M.fns n (.chStream i) (fun b o =>
      op T (mk (M.fns n) (.chCollide i) (centre [.ch i, .phi i, .mu i, .velocity]) [.ch i]) b (x + toTorus size o)) (.chTmp i) := by
    simp [step, chPart, op, mk, swapArrays]
  rw [e, fns_chStream, toValues_fin]
  unfold Model.streamed
  beta_reduce
  rw [sub_torus, op_mk_mem _ _ _ _ _ (by simp), fns_chCollide, toValues_fin]
  simp only [add_zero_torus]

theorem chPart_phi (i : ℕ) (x : Torus size) : step (chPart M n i) T (.phi i) x 0 = ∑ q : Fin Q, step (chPart M n i) T (.ch i) x q := by
  obtain ⟨A, hA⟩ : ∃ A : Arr → Torus size → Values K, A = step [mk (M.fns n) (.chCollide i) (centre [.ch i, .phi i, .mu i, .velocity]) [.ch i],
    .sync [.ch i], mk (M.fns n) (.chStream i) (around 1 [.ch i]) [.chTmp i], .swap (.ch i) (.chTmp i)] T := ⟨_, rfl⟩
  have e : step (chPart M n i) T = op A (mk (M.fns n) (.chGetter i) (centre [.ch i]) [.phi i]) := by
    rw [hA]
    rfl
  rw [e, op_mk_mem _ _ _ _ _ (by simp), fns_chGetter, op_mk_not_mem _ _ _ _ _ (by simp)]
  simp only [add_zero_torus]
  rfl

theorem chParts (l : List ℕ) (hl : l.Nodup) : let T1 := step (l.flatMap (chPart M n)) T
    (∀ i ∈ l, ∀ x, (∀ q : Fin Q, T1 (.ch i) x q =
      M.chCollide (T (.phi i) (x - toTorus size (M.directions q)) 0) (T (.mu i) (x - toTorus size (M.directions q)) 0)
        (fun a => T .velocity (x - toTorus size (M.directions q)) a) (fun q' => T (.ch i) (x - toTorus size (M.directions q)) q') q) ∧
      T1 (.phi i) x 0 = ∑ q : Fin Q, T1 (.ch i) x q) ∧
    ∀ a, (∀ i ∈ l, a ≠ .ch i ∧ a ≠ .chTmp i ∧ a ≠ .phi i) → T1 a = T a := by
  induction l generalizing T with
  | nil => exact ⟨by simp, fun _ _ => rfl⟩
  | cons j l ih =>
    rw [List.nodup_cons] at hl
    rw [List.flatMap_cons, step_append]
    obtain ⟨h1, h2⟩ := ih (step (chPart M n j) T) hl.2
    refine ⟨fun i hi x => ?_, fun a ha => ?_⟩
    · by_cases hij : i = j
      · subst hij
        have hne : ∀ j ∈ l, i ≠ j := fun j hj h => hl.1 (h ▸ hj)
        rw [h2 (.ch i) fun j hj => ⟨by simp [hne j hj], by simp, by simp⟩, h2 (.phi i) fun j hj => ⟨by simp, by simp, by simp [hne j hj]⟩]
        exact ⟨fun q => chPart_pdfs M T i x q, chPart_phi M T i x⟩
      · have hi : i ∈ l := by simpa [hij] using hi
        have := h1 i hi x
        rw [chPart_other M T j (.mu i) (by simp) (by simp) (by simp), chPart_other M T j .velocity (by simp) (by simp) (by simp),
          chPart_other M T j (.ch i) (by simp [hij]) (by simp) (by simp), chPart_other M T j (.phi i) (by simp) (by simp) (by simp [hij])] at this
        exact this
    · rw [h2 a fun i hi => ha i (List.mem_cons_of_mem _ hi)]
      have := ha j (by simp)
      exact chPart_other M T j a this.1 this.2.1 this.2.2

theorem step_spec : Spec.Step M n T (step (nestlerStep (M.fns n) n false) T) := by
  rw [nestlerStep_eq, step_append]
  obtain ⟨h1, h2, h3, h4, h5, h6⟩ := prelude_spec M (n := n) T
  obtain ⟨g1, g2⟩ := chParts M (n := n) (step (prelude M n) T) (List.range n) List.nodup_range
  have emu : ∀ i, step ((List.range n).flatMap (chPart M n)) (step (prelude M n) T) (.mu i) = step (prelude M n) T (.mu i) := fun i => g2 _ (by simp)
  have eforce := g2 .force (by simp)
  have ehydro := g2 .hydro (by simp)
  have edens := g2 .density (by simp)
  have evel := g2 .velocity (by simp)
  constructor
  · intro i x
    rw [emu]
    exact h1 i x
  · intro x b
    simp only [emu]
    rw [eforce]
    exact h2 x b
  · intro x q
    rw [eforce, ehydro]
    exact h3 x q
  · intro x
    rw [edens, ehydro]
    exact h4 x
  · intro x a
    rw [evel, ehydro]
    exact h5 x a
  · intro i hi x q
    rw [(g1 i (List.mem_range.2 hi) x).1 q, emu, evel, h6 (.phi i) (by simp) (by simp) (by simp) (by simp) (by simp) (by simp),
      h6 (.ch i) (by simp) (by simp) (by simp) (by simp) (by simp) (by simp)]
  · intro i hi x
    exact (g1 i (List.mem_range.2 hi) x).2

/-- **C92 (one time step).** On arrays with two ghost layers, whatever these contain and in whatever order the cells are treated, a step
computes the fields of the scheme on the periodic grid. -/
theorem C92_step [∀ i, NeZero (size i)] (hc : ∀ q, layers (M.directions q) ≤ 1) {l : List (Op Arr (Values K) D)} (hl : M.program n = .ok l)
    (order : GhostLayers.Schedule D) (ho : GhostLayers.Spec.Valid size order) (t steps : ℕ) (st : Arrays Arr (Values K) D) :
    ∃ st' st'', runSteps size 2 order l t steps st = some st' ∧ runSteps size 2 order l t (steps + 1) st = some st'' ∧
      Spec.Step M n (GhostLayers.Spec.domain (size := size) st') (GhostLayers.Spec.domain (size := size) st'') := by
  have hl' : l = nestlerStep (M.fns n) n false := by
    unfold Model.program at hl
    split_ifs at hl
    exact (Except.ok.inj hl).symm
  subst hl'
  have hr := C90_nestler (M.fns n) order ho n false (allLocal M hc) t
  obtain ⟨st', e, h⟩ := hr steps st
  obtain ⟨st'', e', h'⟩ := hr (steps + 1) st
  refine ⟨st', st'', e, e', ?_⟩
  rw [h', Function.iterate_succ_apply', ← h]
  exact step_spec M _

end StepSpec

/-! ## Chemical potentials -/

section Potentials

variable {X : Type} (P : Args K) (lapl : (X → K) → X → K)

open MvPolynomial in
theorem eval_pderiv_X (c : Fin n → K) (i a : Fin n) : eval c (pderiv i (MvPolynomial.X a : MvPolynomial (Fin n) K)) = if a = i then 1 else 0 := by
  by_cases h : a = i
  · subst h
    simp
  · rw [pderiv_X_of_ne h, if_neg h, map_zero]

theorem pair_sum (c : Fin n → K) (k : ℕ → ℕ → K) (i : Fin n) :
    (∑ a : Fin n, ∑ j : Fin n, if j < a then k a j * ((if a = i then 2 * c a else 0) * c j ^ 2 + c a ^ 2 * if j = i then 2 * c j else 0) else 0) =
      ∑ j : Fin n, if j = i then 0 else 2 * k (max i j : Fin n) (min i j : Fin n) * (c i * c j ^ 2) := by
  have e : ∀ a j : Fin n, (if j < a then k a j * ((if a = i then 2 * c a else 0) * c j ^ 2 + c a ^ 2 * if j = i then 2 * c j else 0) else 0) =
      (if a = i then (if j < i then 2 * k i j * (c i * c j ^ 2) else 0) else 0) + if j = i then (if i < a then 2 * k a i * (c i * c a ^ 2) else 0) else 0 := by
    intro a j
    by_cases h1 : a = i
    · subst h1
      by_cases h2 : j = a
      · subst h2
        simp
      · simp only [if_true, h2, if_false, mul_zero, add_zero]
        split_ifs <;> ring
    · by_cases h2 : j = i
      · subst h2
        simp only [h1, if_false, zero_mul, zero_add, if_true]
        split_ifs <;> ring
      · simp [h1, h2]
  simp only [e, Finset.sum_add_distrib]
  have e1 : (∑ a : Fin n, ∑ j : Fin n, if a = i then (if j < i then 2 * k i j * (c i * c j ^ 2) else 0) else 0) =
      ∑ j : Fin n, if j < i then 2 * k i j * (c i * c j ^ 2) else 0 := by
    rw [Finset.sum_comm]
    refine Finset.sum_congr rfl fun j _ => ?_
    rw [Finset.sum_ite_eq']
    simp
  have e2 : (∑ a : Fin n, ∑ j : Fin n, if j = i then (if i < a then 2 * k a i * (c i * c a ^ 2) else 0) else 0) =
      ∑ j : Fin n, if i < j then 2 * k j i * (c i * c j ^ 2) else 0 := by
    refine Finset.sum_congr rfl fun a _ => ?_
    rw [Finset.sum_ite_eq']
    simp
  rw [e1, e2, ← Finset.sum_add_distrib]
  refine Finset.sum_congr rfl fun j _ => ?_
  rcases lt_trichotomy j i with h | h | h
  · rw [if_pos h, if_neg (not_lt_of_gt h), if_neg h.ne, add_zero, max_eq_left h.le, min_eq_right h.le]
  · subst h
    simp
  · rw [if_pos h, if_neg (not_lt_of_gt h), if_neg h.ne', zero_add, max_eq_right h.le, min_eq_left h.le]

theorem triple_sum (c : Fin n → K) (g : K) (i : Fin n) :
    (∑ a : Fin n, ∑ b : Fin n, if b < a then ∑ d : Fin n, if d < b then
      g * ((if a = i then 1 else 0) * (c b * c d) + (if b = i then 1 else 0) * (c a * c d) + (if d = i then 1 else 0) * (c a * c b)) else 0 else 0) =
      g * Spec.pairs c i := by
  have e : ∀ a b d : Fin n, (if b < a then if d < b then
      g * ((if a = i then 1 else 0) * (c b * c d) + (if b = i then 1 else 0) * (c a * c d) + (if d = i then 1 else 0) * (c a * c b)) else 0 else 0) =
      (if a = i then (if b < i ∧ d < b then g * (c b * c d) else 0) else 0) + (if b = i then (if i < a ∧ d < i then g * (c a * c d) else 0) else 0) +
        if d = i then (if b < a ∧ i < b then g * (c a * c b) else 0) else 0 := by
    intro a b d
    by_cases h1 : b < a
    · by_cases h2 : d < b
      · rw [if_pos h1, if_pos h2]
        by_cases ha : a = i
        · have hb : b ≠ i := by omega
          have hd : d ≠ i := by omega
          have : b < i ∧ d < b := by omega
          simp [ha, hb, hd, this]
        · by_cases hb : b = i
          · have hd : d ≠ i := by omega
            have : i < a ∧ d < i := by omega
            simp [ha, hb, hd, this]
          · by_cases hd : d = i
            · have : b < a ∧ i < b := by omega
              simp [ha, hb, hd, this]
            · simp [ha, hb, hd]
      · rw [if_pos h1, if_neg h2]
        split_ifs <;> first | omega | simp
    · rw [if_neg h1]
      split_ifs <;> first | omega | simp
  have e' : ∀ a b : Fin n, (if b < a then ∑ d : Fin n, if d < b then
      g * ((if a = i then 1 else 0) * (c b * c d) + (if b = i then 1 else 0) * (c a * c d) + (if d = i then 1 else 0) * (c a * c b)) else 0 else 0) =
      ∑ d : Fin n, ((if a = i then (if b < i ∧ d < b then g * (c b * c d) else 0) else 0) + (if b = i then (if i < a ∧ d < i then g * (c a * c d) else 0) else 0) +
        if d = i then (if b < a ∧ i < b then g * (c a * c b) else 0) else 0) := by
    intro a b
    simp only [← e]
    by_cases h : b < a
    · simp only [if_pos h]
    · simp only [if_neg h, Finset.sum_const_zero]
  simp only [e', Finset.sum_add_distrib]
  have e1 : (∑ a : Fin n, ∑ b : Fin n, ∑ d : Fin n, if a = i then (if b < i ∧ d < b then g * (c b * c d) else 0) else 0) =
      ∑ b : Fin n, ∑ d : Fin n, if b < i ∧ d < b then g * (c b * c d) else 0 := by
    rw [Finset.sum_eq_single i (fun a _ ha => by simp [ha]) (by simp)]
    simp
  have e2 : (∑ a : Fin n, ∑ b : Fin n, ∑ d : Fin n, if b = i then (if i < a ∧ d < i then g * (c a * c d) else 0) else 0) =
      ∑ a : Fin n, ∑ d : Fin n, if i < a ∧ d < i then g * (c a * c d) else 0 := by
    refine Finset.sum_congr rfl fun a _ => ?_
    rw [Finset.sum_eq_single i (fun b _ hb => by simp [hb]) (by simp)]
    simp
  have e3 : (∑ a : Fin n, ∑ b : Fin n, ∑ d : Fin n, if d = i then (if b < a ∧ i < b then g * (c a * c b) else 0) else 0) =
      ∑ a : Fin n, ∑ b : Fin n, if b < a ∧ i < b then g * (c a * c b) else 0 := by
    refine Finset.sum_congr rfl fun a _ => Finset.sum_congr rfl fun b _ => ?_
    rw [Finset.sum_ite_eq']
    simp
  rw [e1, e2, e3, ← Finset.sum_add_distrib, ← Finset.sum_add_distrib]
  unfold Spec.pairs
  rw [Finset.mul_sum]
  refine Finset.sum_congr rfl fun j _ => ?_
  rw [Finset.mul_sum, ← Finset.sum_add_distrib, ← Finset.sum_add_distrib]
  refine Finset.sum_congr rfl fun k _ => ?_
  by_cases h : k < j ∧ j ≠ i ∧ k ≠ i
  · rw [if_pos h]
    rcases lt_or_gt_of_ne h.2.1 with h1 | h1
    · rw [if_pos ⟨h1, h.1⟩, if_neg (by omega), if_neg (by omega)]
      ring
    · rcases lt_or_gt_of_ne h.2.2 with h2 | h2
      · rw [if_neg (by omega), if_pos ⟨h1, h2⟩, if_neg (by omega)]
        ring
      · rw [if_neg (by omega), if_neg (by omega), if_pos ⟨h.1, h2⟩]
        ring
  · rw [if_neg h, if_neg (by omega), if_neg (by omega), if_neg (by omega)]
    ring

open MvPolynomial in
/-- **C92 (bulk).** The bulk part of a chemical potential is the derivative of the free energy, the same for all phases; the order of the phases is
only that of the keys of the dictionaries. -/
theorem C92_bulk [CharZero K] (c : Fin n → K) (i : Fin n) : eval c (pderiv i (energy P n)) = Spec.slope P c i := by
  have hp : eval c (pderiv i (C P.penaltyFactor * (1 - ∑ j, MvPolynomial.X j) ^ 2 : MvPolynomial (Fin n) K)) =
      -(2 * P.penaltyFactor * (1 - ∑ j, c j)) := by
    simp only [Derivation.leibniz, Derivation.leibniz_pow, map_sub, map_sum, eval_pderiv_X, map_add, smul_eq_mul, map_mul, pderiv_C, map_zero,
      pderiv_one, eval_C, map_pow, map_one, eval_X, nsmul_eq_mul, map_natCast, Finset.sum_ite_eq', Finset.mem_univ, if_true]
    push_cast
    ring
  have h1 : ∀ a j : Fin n, eval c (pderiv i (if j < a then C (4 * entry P.coeffA a j)⁻¹ * (MvPolynomial.X a ^ 2 * MvPolynomial.X j ^ 2) else 0)) =
      if j < a then (4 * entry P.coeffA a j)⁻¹ * ((if a = i then 2 * c a else 0) * c j ^ 2 + c a ^ 2 * if j = i then 2 * c j else 0) else 0 := by
    intro a j
    by_cases h : j < a
    · rw [if_pos h, if_pos h]
      simp only [Derivation.leibniz, Derivation.leibniz_pow, eval_pderiv_X, map_add, smul_eq_mul, map_mul, pderiv_C, map_zero, eval_C, map_pow, eval_X,
        nsmul_eq_mul, map_natCast]
      split_ifs <;> push_cast <;> ring
    · rw [if_neg h, if_neg h]
      simp
  have h2 : ∀ a b : Fin n, eval c (pderiv i (if b < a then ∑ d : Fin n, if d < b then
      C P.gabd * MvPolynomial.X a * MvPolynomial.X b * MvPolynomial.X d else 0 else 0)) = if b < a then ∑ d : Fin n, if d < b then
      P.gabd * ((if a = i then 1 else 0) * (c b * c d) + (if b = i then 1 else 0) * (c a * c d) + (if d = i then 1 else 0) * (c a * c b)) else 0 else 0 := by
    intro a b
    by_cases h : b < a
    · rw [if_pos h, if_pos h, map_sum, map_sum]
      refine Finset.sum_congr rfl fun d _ => ?_
      by_cases h' : d < b
      · rw [if_pos h', if_pos h']
        simp only [Derivation.leibniz, eval_pderiv_X, map_add, smul_eq_mul, map_mul, pderiv_C, map_zero, eval_C, eval_X]
        ring
      · rw [if_neg h', if_neg h']
        simp
    · rw [if_neg h, if_neg h]
      simp
  unfold energy bulk Spec.slope
  rw [map_add, map_add, hp, map_add, map_add, map_sum, map_sum, map_sum, map_sum]
  have e1 : (∑ a : Fin n, eval c (pderiv i (∑ j : Fin n, if j < a then C (4 * entry P.coeffA a j)⁻¹ * (MvPolynomial.X a ^ 2 * MvPolynomial.X j ^ 2) else 0))) =
      ∑ j, if j = i then 0 else c i * c j ^ 2 / (2 * Spec.pair P.coeffA i j) := by
    simp only [map_sum, h1]
    rw [pair_sum c (fun a j => (4 * entry P.coeffA a j)⁻¹)]
    refine Finset.sum_congr rfl fun j _ => ?_
    by_cases h : j = i
    · rw [if_pos h, if_pos h]
    · rw [if_neg h, if_neg h]
      unfold Spec.pair
      generalize entry P.coeffA _ _ = z
      rw [div_eq_mul_inv, mul_inv, mul_inv]
      have : (4 : K)⁻¹ = 2⁻¹ * 2⁻¹ := by norm_num
      rw [this]
      have h2 : (2 : K) ≠ 0 := two_ne_zero
      field_simp
  have e2 : (∑ a : Fin n, eval c (pderiv i (∑ b : Fin n, if b < a then ∑ d : Fin n, if d < b then
      C P.gabd * MvPolynomial.X a * MvPolynomial.X b * MvPolynomial.X d else 0 else 0))) = P.gabd * Spec.pairs c i := by
    simp only [map_sum (eval c), map_sum (pderiv i), h2]
    exact triple_sum c P.gabd i
  rw [e1, e2]
  ring

/-- **C92 (interfaces).** The interfacial parts of the chemical potentials add up to zero, for every way to compute the Laplacian. -/
theorem C92_interfacial_sum [CharZero K] (c : Fin n → X → K) (x : X) : ∑ i, interfacial P lapl c i x = 0 := by
  have h : ∀ i k : Fin n, (if i = k then 0 else
      let eps := if i < k then entry P.coeffEpsilon k i else entry P.coeffEpsilon i k
      P.alpha ^ 2 * eps ^ 2 * (c k x * lapl (c i) x - c i x * lapl (c k) x)) = -(if k = i then 0 else
      let eps := if k < i then entry P.coeffEpsilon i k else entry P.coeffEpsilon k i
      P.alpha ^ 2 * eps ^ 2 * (c i x * lapl (c k) x - c k x * lapl (c i) x)) := by
    intro i k
    rcases lt_trichotomy i k with h | h | h
    · simp only [if_neg h.ne, if_neg h.ne', if_pos h, if_neg (not_lt_of_gt h)]
      ring
    · simp [h]
    · simp only [if_neg h.ne, if_neg h.ne', if_pos h, if_neg (not_lt_of_gt h)]
      ring
  have hs : ∑ i, interfacial P lapl c i x = -∑ i, interfacial P lapl c i x := by
    conv_lhs => unfold interfacial
    rw [Finset.sum_neg_distrib, Finset.sum_comm]
    congr 1
    refine Finset.sum_congr rfl fun i _ => ?_
    unfold interfacial
    rw [← Finset.sum_neg_distrib]
    exact Finset.sum_congr rfl fun k _ => h k i
  have h2 : (2 : K) * ∑ i, interfacial P lapl c i x = 0 := by linear_combination hs
  simpa using h2

/-- **C92 (two phases).** Where two phases fill the space, the interfacial part is that of a single order parameter: `∓ α² ε² Δc`. -/
theorem C92_two_phases (hl : ∀ f g : X → K, ∀ x, lapl (fun y => f y - g y) x = lapl f x - lapl g x) (h1 : ∀ x, lapl (fun _ => 1) x = 0) (c : X → K) (x : X) :
    interfacial P lapl ![c, fun y => 1 - c y] 0 x = -(P.alpha ^ 2 * entry P.coeffEpsilon 1 0 ^ 2 * lapl c x) ∧
    interfacial P lapl ![c, fun y => 1 - c y] 1 x = P.alpha ^ 2 * entry P.coeffEpsilon 1 0 ^ 2 * lapl c x := by
  unfold interfacial
  constructor
  · simp [Fin.sum_univ_two, hl (fun _ => 1) c, h1]
    left
    ring
  · simp [Fin.sum_univ_two, hl (fun _ => 1) c, h1]
    ring

/-- **C92 (absent phases).** Where a phase is absent, with its Laplacian, its chemical potential is that of the other pairs of phases, however
the interfaces lie; without the coefficient of triples and with all phases adding up to one, it is zero. -/
theorem C92_absent [CharZero K] (c : Fin n → X → K) (k : Fin n) (x : X) (h0 : c k x = 0) (hl : lapl (c k) x = 0) :
    potential P lapl c k x = P.gabd * Spec.pairs (fun j => c j x) k - 2 * P.penaltyFactor * (1 - ∑ j, c j x) := by
  unfold potential
  rw [C92_bulk]
  unfold Spec.slope interfacial
  have e1 : (∑ j, if j = k then (0 : K) else c k x * c j x ^ 2 / (2 * Spec.pair P.coeffA k j)) = 0 :=
    Finset.sum_eq_zero fun j _ => by simp [h0]
  have e2 : (∑ j, if k = j then (0 : K) else
      let eps := if k < j then entry P.coeffEpsilon j k else entry P.coeffEpsilon k j
      P.alpha ^ 2 * eps ^ 2 * (c j x * lapl (c k) x - c k x * lapl (c j) x)) = 0 :=
    Finset.sum_eq_zero fun j _ => by simp [h0, hl]
  rw [e1, e2]
  ring

end Potentials

/-! ## The order parameters -/

open CahnHilliardLb in
/-- **C92 (collision).** With rate one and the density read from the field, the collision of an order parameter replaces the populations, whatever they
are, by the equilibrium of the order parameter, chemical potential and velocity in the cell; it has the order parameter as sum and the advected
order parameter as first moment. -/
theorem C92_collision [CharZero K] [DecidableEq K] : ∀ e ∈ Tables.predefined, ∀ ws ∈ getWeights e.2.2,
    (defaultMomentSet (e.2.2.headD []).length e.2.2.length).isSome → ∀ (c mu : K) (v : Fin (e.2.2.headD []).length → K),
    ∃ rule, chRule e.2.2 c mu v = .ok rule ∧ ∀ f,
      (∀ q, rule f q = Spec.equilibrium (PhaseFieldRun.Spec.directions e.2.2) (weightVec e.2.2 ws) c mu v q) ∧
      ∑ q, rule f q = c ∧ ∀ a, ∑ q, (PhaseFieldRun.Spec.directions e.2.2 q a : K) * rule f q = c * v a := by
  intro e he ws hws hd c mu v
  obtain ⟨ps, hps⟩ := Option.isSome_iff_exists.1 hd
  obtain ⟨l, hl, -, hq⟩ := equilibrium_aux e he ws hws mu 1 c v
  have hrel : relaxationDict (K := K) (e.2.2.headD []).length e.2.2.length (.plain 1) = .ok (ps.map fun p => (p, 1)) := by
    simp only [relaxationDict, hps, if_pos (default_length e he ps hps)]
  have hm : ((chMethod e.2.2 (ps.map fun p => (p, (1 : K))) mu c v).relax.map Prod.fst) = ps := by
    simp [chMethod, Function.comp_def]
  have hw : (chMethod e.2.2 (ps.map fun p => (p, (1 : K))) mu c v).WellFormed :=
    C19_offered_sets_well_formed e he _ (fun _ _ => rfl) (.inl rfl) (.inl ⟨ps, hps, by rw [hm]⟩)
  have key := MomentMethod.C19_single_rate (chMethod e.2.2 (ps.map fun p => (p, (1 : K))) mu c v) hw 0
    (fun _ q => match equilibriumTerms e.2.2 mu 1 c v with | .ok l => l.getD q 0 | .error _ => 0) 1
    (by
      intro x hx
      obtain ⟨p, -, rfl⟩ := List.mem_map.1 hx
      rfl) rfl (by intro h i; simp [MomentMethod.bgMoment, chMethod, Lbm.Spec.mom])
    (fun f h i => rfl)
  simp only [hl] at key
  have hr : ∀ (f : Fin e.2.2.length → K) (q : Fin e.2.2.length), (f + (1 : K) • ((fun q : Fin e.2.2.length => l.getD q 0) - 0 - f)) q = l.getD q 0 := by
    intro f q
    simp
  obtain ⟨l', hl', -, m0, m1, -⟩ := C66_moments e he (Option.isSome_iff_exists.2 ⟨ws, hws⟩) mu 1 c v
  obtain rfl : l' = l := by rw [hl'] at hl; exact Except.ok.inj hl
  refine ⟨_, by
    unfold chRule
    rw [hl, hrel]
    exact key, fun f => ⟨fun q => ?_, ?_, fun a => ?_⟩⟩
  · rw [hr f q, (hq q).1]
    unfold poly Spec.equilibrium
    simp only [one_mul, sq]
    rfl
  · simp only [hr]
    exact m0
  · simp only [hr]
    exact m1 a

section Conservation

open GhostLayers.Spec (toTorus Torus)

variable {M} [∀ i, NeZero (size i)]

/-- **C92 (conservation).** The amount of every phase stays the same, and the mass of the flow as long as no density is zero; nothing is needed of
the populations of the order parameters. -/
theorem C92_conservation (hc : ∀ q, layers (M.directions q) ≤ 1) (hch : ∀ c mu v f, ∑ q, M.chCollide c mu v f q = c)
    (hf : ∀ F f, ∑ q, f q ≠ 0 → ∑ q, M.collide F f q = ∑ q, f q) {l : List (Op Arr (Values K) D)} (hl : M.program n = .ok l)
    (order : GhostLayers.Schedule D) (ho : GhostLayers.Spec.Valid size order) (t steps : ℕ) (st : Arrays Arr (Values K) D) :
    ∃ st', runSteps size 2 order l t steps st = some st' ∧
      (∀ i < n, ∑ x, GhostLayers.Spec.domain (size := size) st' (.phi i) x 0 = ∑ x, GhostLayers.Spec.domain (size := size) st (.phi i) x 0) ∧
      ((∀ s < steps, ∀ st'', runSteps size 2 order l t s st = some st'' → ∀ x, ∑ q : Fin Q, GhostLayers.Spec.domain (size := size) st'' .hydro x q ≠ 0) →
        ∑ x, ∑ q : Fin Q, GhostLayers.Spec.domain (size := size) st' .hydro x q = ∑ x, ∑ q : Fin Q, GhostLayers.Spec.domain (size := size) st .hydro x q) := by
  induction steps with
  | zero => exact ⟨st, rfl, fun _ _ => rfl, fun _ => rfl⟩
  | succ s ih =>
    obtain ⟨st', e, h1, h2⟩ := ih
    obtain ⟨st1, st'', e1, e2, h⟩ := C92_step M hc hl order ho t s st
    obtain rfl : st1 = st' := Option.some.inj (e1.symm.trans e)
    refine ⟨st'', e2, fun i hi => ?_, fun hd => ?_⟩
    · rw [← h1 i hi]
      simp only [h.phi i hi, h.pdfs i hi]
      have := sum_moved M.directions fun q x => M.chCollide (GhostLayers.Spec.domain (size := size) st1 (.phi i) x 0)
        (GhostLayers.Spec.domain (size := size) st'' (.mu i) x 0) (fun a => GhostLayers.Spec.domain (size := size) st'' .velocity x a)
        (fun q' => GhostLayers.Spec.domain (size := size) st1 (.ch i) x q') q
      simp only [sub_torus] at this
      rw [this]
      exact Finset.sum_congr rfl fun x _ => hch _ _ _ _
    · rw [← h2 fun s' hs' => hd s' (hs'.trans (Nat.lt_succ_self s))]
      simp only [h.hydro]
      have := sum_moved M.directions fun q x => M.collide (fun a => GhostLayers.Spec.domain (size := size) st'' .force x a)
        (fun q' => GhostLayers.Spec.domain (size := size) st1 .hydro x q') q
      simp only [sub_torus] at this
      rw [this]
      exact Finset.sum_congr rfl fun x _ => hf _ _ (hd s (Nat.lt_succ_self s) st1 e x)

end Conservation

section Phases

open GhostLayers.Spec (toTorus Torus)

variable {M} {w : Fin Q → K} {T T' : Arr → Torus size → Values K}

theorem equilibrium_sum (dirs : Fin Q → Vec D) (w : Fin Q → K) (c mu : Fin n → K) (v : Fin D → K) (q : Fin Q) :
    ∑ i, Spec.equilibrium dirs w (c i) (mu i) v q = Spec.equilibrium dirs w (∑ i, c i) (∑ i, mu i) v q := by
  unfold Spec.equilibrium
  simp only [Finset.sum_add_distrib, ← Finset.mul_sum, ← Finset.sum_mul]
  congr 1
  split_ifs
  · rw [Finset.sum_sub_distrib, Finset.mul_sum]
  · simp

/-- **C92 (sum of the phases).** The sum of all phases is transported like one order parameter, whose chemical potential is the sum of the slopes of the
bulk energy: interfaces do not enter. -/
theorem C92_sum_of_phases [CharZero K] (h : Spec.Step M n T T') (hM : ∀ c mu v f q, M.chCollide c mu v f q = Spec.equilibrium M.directions w c mu v q)
    (x : Torus size) : ∑ i : Fin n, T' (.phi i) x 0 = ∑ q : Fin Q, let y := x - toTorus size (M.directions q)
      Spec.equilibrium M.directions w (∑ i : Fin n, T (.phi i) y 0) (∑ i : Fin n, Spec.slope M.args (fun j : Fin n => T (.phi j) y 0) i)
        (fun a => T' .velocity y a) q := by
  have hmu : ∀ y, ∑ i : Fin n, T' (.mu i) y 0 = ∑ i : Fin n, Spec.slope M.args (fun j : Fin n => T (.phi j) y 0) i := by
    intro y
    simp only [h.mu, potential, C92_bulk, Finset.sum_add_distrib, C92_interfacial_sum, add_zero]
  have e : ∀ i : Fin n, T' (.phi i) x 0 = ∑ q : Fin Q, Spec.equilibrium M.directions w (T (.phi i) (x - toTorus size (M.directions q)) 0)
      (T' (.mu i) (x - toTorus size (M.directions q)) 0) (fun a => T' .velocity (x - toTorus size (M.directions q)) a) q := by
    intro i
    rw [h.phi i i.2]
    exact Finset.sum_congr rfl fun q _ => by rw [h.pdfs i i.2, hM]
  simp only [e]
  rw [Finset.sum_comm]
  refine Finset.sum_congr rfl fun q _ => ?_
  rw [equilibrium_sum, hmu]

/-- **C92 (absent phases).** A phase that is absent everywhere arises at the interfaces of the others: after the step it is the discrete
Laplacian, three times the weighted mean minus the value, of the products of the other phases, times the coefficient of triples.  All phases together
fill the space before. -/
theorem C92_absent_step [CharZero K] (h : Spec.Step M n T T') (hM : ∀ c mu v f q, M.chCollide c mu v f q = Spec.equilibrium M.directions w c mu v q)
    (h0 : ∃ q0 : Fin Q, q0.1 = 0 ∧ M.directions q0 = 0) (k : Fin n) (hk : ∀ y, T (.phi k) y 0 = 0) (hs : ∀ y, ∑ i : Fin n, T (.phi i) y 0 = 1)
    (x : Torus size) : T' (.phi k) x 0 = 3 * M.args.gabd *
      ((∑ q, w q * Spec.pairs (fun j : Fin n => T (.phi j) (x - toTorus size (M.directions q)) 0) k) - Spec.pairs (fun j : Fin n => T (.phi j) x 0) k) := by
  have hmu : ∀ y, T' (.mu k) y 0 = M.args.gabd * Spec.pairs (fun j : Fin n => T (.phi j) y 0) k := by
    intro y
    rw [h.mu, C92_absent _ _ _ _ _ (hk y), hs, sub_self, mul_zero, sub_zero]
    unfold Spec.around
    simp only [hk, mul_zero, List.map_const', List.sum_replicate, smul_zero]
  obtain ⟨q0, hq0, hd0⟩ := h0
  rw [h.phi k k.2]
  simp only [h.pdfs k k.2, hM, hk, hmu, Spec.equilibrium, mul_zero, zero_mul, add_zero, zero_sub, Finset.sum_add_distrib]
  have e : ∀ q : Fin Q, (if q.1 = 0 then -(3 * (M.args.gabd * Spec.pairs (fun j : Fin n => T (.phi j) (x - toTorus size (M.directions q)) 0) k)) else 0) =
      if q = q0 then -(3 * (M.args.gabd * Spec.pairs (fun j : Fin n => T (.phi j) x 0) k)) else 0 := by
    intro q
    by_cases hq : q = q0
    · subst hq
      rw [if_pos hq0, if_pos rfl, hd0]
      have : x - toTorus size (0 : Vec D) = x := by
        funext i
        simp [toTorus]
      rw [this]
    · rw [if_neg hq, if_neg fun h => hq (Fin.ext (h.trans hq0.symm))]
  simp only [e, Finset.sum_ite_eq', Finset.mem_univ, if_true]
  rw [mul_sub, Finset.mul_sum, sub_eq_add_neg]
  congr 1
  · exact Finset.sum_congr rfl fun q _ => by ring
  · ring

end Phases

/-! ## The planar interface -/

/-- **C92 (planar interface).** Across an interface of two phases with the profile `tanh` and the width that fits the coefficients, both chemical potentials
are the same, but not constant: the Laplacian is negative in the middle of the interface, where thus both phases become less. -/
theorem C92_planar_interface (P : Args ℝ) {W a : ℝ} (hW : W ≠ 0) (ha : a ≠ 0) (hA : entry P.coeffA 1 0 = a)
    (hw : W ^ 2 = 64 * a * P.alpha ^ 2 * entry P.coeffEpsilon 1 0 ^ 2) :
    (∀ i x, potential P (fun f => deriv (deriv f)) ![AllenCahn.profile W, fun x => 1 - AllenCahn.profile W x] i x =
      AllenCahn.profile W x * (1 - AllenCahn.profile W x) / (4 * a)) ∧
    deriv (deriv fun x => AllenCahn.profile W x * (1 - AllenCahn.profile W x) / (4 * a)) 0 = -1 / (2 * a * W ^ 2) := by
  have d1 : deriv (fun x => 1 - AllenCahn.profile W x) = fun x => -deriv (AllenCahn.profile W) x := by
    funext x
    exact deriv_const_sub 1
  have d2 : ∀ x, deriv (deriv fun x => 1 - AllenCahn.profile W x) x = -deriv (deriv (AllenCahn.profile W)) x := by
    intro x
    rw [d1]
    exact deriv.neg
  have hprof : ∀ x, deriv (deriv (AllenCahn.profile W)) x =
      16 * AllenCahn.profile W x * (1 - AllenCahn.profile W x) * (1 - 2 * AllenCahn.profile W x) / W ^ 2 := by
    intro x
    rw [(AllenCahn.hasDerivAt_deriv_profile hW x).deriv]
    field_simp
    ring
  have hE : P.alpha ^ 2 * entry P.coeffEpsilon 1 0 ^ 2 = W ^ 2 / (64 * a) := by
    rw [hw]
    field_simp
  constructor
  · intro i x
    unfold potential
    rw [C92_bulk]
    unfold interfacial Spec.slope Spec.pairs Spec.pair
    fin_cases i
    · simp [Fin.sum_univ_two, hA, hprof, hE]
      field_simp
      ring
    · simp [Fin.sum_univ_two, hA, hprof, hE]
      field_simp
      ring
  · have e1 : (deriv fun x => AllenCahn.profile W x * (1 - AllenCahn.profile W x) / (4 * a)) =
        fun x => deriv (AllenCahn.profile W) x * (1 - 2 * AllenCahn.profile W x) / (4 * a) := by
      funext x
      have h := AllenCahn.hasDerivAt_profile hW x
      have h' : HasDerivAt (fun x => AllenCahn.profile W x * (1 - AllenCahn.profile W x) / (4 * a)) _ x := (h.mul (h.const_sub 1)).div_const (4 * a)
      rw [h'.deriv, h.deriv]
      ring
    have h0 : AllenCahn.profile W 0 = 1 / 2 := by simp [AllenCahn.profile]
    have h := AllenCahn.hasDerivAt_profile hW 0
    have h' : HasDerivAt (fun x => deriv (AllenCahn.profile W) x * (1 - 2 * AllenCahn.profile W x) / (4 * a)) _ 0 :=
      ((AllenCahn.hasDerivAt_deriv_profile hW 0).mul ((h.const_mul 2).const_sub 1)).div_const (4 * a)
    rw [e1, h'.deriv, h.deriv, h0]
    field_simp
    ring

/-! ## The projection -/

section Projection

variable [LinearOrder K] [IsStrictOrderedRing K]

theorem lookup_zip {X : Type} [DecidableEq X] {C : Type} : ∀ (l : List X) (out : List C), out.length = l.length → ∀ y,
    (y ∈ l → ∃ c ∈ out, (l.zip out).lookup y = some c) ∧ (y ∉ l → (l.zip out).lookup y = none)
  | [], out, _, y => by simp
  | x :: l, [], h, y => by simp at h
  | x :: l, c :: out, h, y => by
    obtain ⟨h1, h2⟩ := lookup_zip l out (by simpa using h) y
    rw [List.zip_cons_cons, List.lookup_cons]
    by_cases hy : y = x
    · subst hy
      simp
    · simp only [beq_false_of_ne hy]
      refine ⟨fun hm => ?_, fun hm => h2 fun h => hm (List.mem_cons_of_mem _ h)⟩
      obtain ⟨c', hc', e⟩ := h1 (by simpa [hy] using hm)
      exact ⟨c', List.mem_cons_of_mem _ hc', e⟩

theorem sweep_some {th : K} : ∀ (cells : List (Fin n → K)) (mask : Fin n → Bool) (out : List (Fin n → K)), Simplex.sweep th mask cells = some out →
    out.length = cells.length ∧ ∀ p ∈ out, Simplex.Spec.InSimplex p
  | [], _, out, h => by
    obtain rfl : [] = out := by simpa [Simplex.sweep] using h
    simp
  | c :: cs, mask, out, h => by
    rw [Simplex.sweep, Option.bind_eq_some_iff] at h
    obtain ⟨r, er, h⟩ := h
    obtain ⟨rest, erest, rfl⟩ := Option.map_eq_some_iff.1 h
    obtain ⟨hl, ho⟩ := sweep_some cs _ rest erest
    refine ⟨by simp [hl], fun p hp => ?_⟩
    rcases List.mem_cons.1 hp with rfl | hp
    · obtain ⟨H, hi⟩ := Simplex.markZeros_inv th c mask
      obtain ⟨st, e, hnn, -⟩ := Simplex.distributeAll_inv n _ H hi (by omega)
      unfold Simplex.projectCell at er
      rw [e, Option.bind_some] at er
      obtain ⟨c', e', rfl⟩ := Option.map_eq_some_iff.1 er
      unfold Simplex.normalize at e'
      by_cases hz : ∑ a, st.c a = 0
      · simp [hz] at e'
      · simp only [if_neg hz, Option.some.injEq] at e'
        subst e'
        have hp : 0 < ∑ a, st.c a := lt_of_le_of_ne (Finset.sum_nonneg fun a _ => hnn a) (Ne.symm hz)
        exact ⟨fun a => div_nonneg (hnn a) hp.le, by rw [← Finset.sum_div, div_self hz]⟩
    · exact ho p hp

/-- **C92 (projection).** The projection fails only by a division by zero, and not if the phases of every cell sum to more than `n` times the
threshold.  After it the phases of every listed cell are nonnegative and sum to one, and nothing else has changed. -/
theorem C92_projection (th : K) (cells : List (Vec D)) (st : Arrays Arr (Values K) D) :
    (∀ st', project th n cells st = some st' →
      (∀ y ∈ cells, Simplex.Spec.InSimplex fun i : Fin n => st' (.phi i) y 0) ∧
      (∀ y ∉ cells, ∀ a, st' a y = st a y) ∧ (∀ a, (∀ i < n, a ≠ .phi i) → st' a = st a) ∧ ∀ i y k, k ≠ 0 → st' (.phi i) y k = st (.phi i) y k) ∧
    (0 ≤ th → (∀ y ∈ cells, (n : K) * th < ∑ i : Fin n, st (.phi i) y 0) → ∃ st', project th n cells st = some st') := by
  constructor
  · intro st' h
    obtain ⟨out, eo, rfl⟩ := Option.map_eq_some_iff.1 h
    obtain ⟨hl, ho⟩ := sweep_some _ _ _ eo
    have hz := lookup_zip cells out (by simpa using hl)
    refine ⟨fun y hy => ?_, fun y hy a => ?_, fun a ha => ?_, fun i y k hk => ?_⟩
    · obtain ⟨c, hc, e⟩ := (hz y).1 hy
      have : (fun i : Fin n => match (cells.zip out).lookup y with
          | some c => if h : i.1 < n ∧ 0 = 0 then c ⟨i, h.1⟩ else st (.phi i) y 0
          | none => st (.phi i) y 0) = c := by
        funext i
        simp [e]
      exact this ▸ ho c hc
    · have e := (hz y).2 hy
      funext k
      cases a <;> simp [e]
    · funext y k
      cases a with
      | phi i =>
        have hi : ¬ i < n := fun hi => ha i hi rfl
        simp only [hi, false_and, dite_false]
        cases (cells.zip out).lookup y <;> rfl
      | _ => rfl
    · simp only [hk, and_false, dite_false]
      cases (cells.zip out).lookup y <;> rfl
  · intro hth hs
    obtain ⟨out, e, -⟩ := Simplex.C71_in_simplex hth (cells.map fun y => fun i : Fin n => st (.phi i) y 0) (by
      intro c hc
      obtain ⟨y, hy, rfl⟩ := List.mem_map.1 hc
      exact hs y hy)
    exact ⟨_, by rw [project, e]; rfl⟩

/-- **C92 (runs with projection).** With the projection the phases of all its cells are in the simplex after every step. -/
theorem C92_run_projected (g : ℕ) (order : GhostLayers.Schedule D) (cells : List (Vec D)) (th : K) (l : List (Op Arr (Values K) D)) :
    ∀ (steps t : ℕ) (st st' : Arrays Arr (Values K) D), runProjected size g order cells th n l t (steps + 1) st = some st' →
    ∀ y ∈ cells, Simplex.Spec.InSimplex fun i : Fin n => st' (.phi i) y 0 := by
  intro steps
  induction steps with
  | zero =>
    intro t st st' h
    rw [runProjected, Option.bind_eq_some_iff] at h
    obtain ⟨st1, e1, h⟩ := h
    rw [Option.bind_eq_some_iff] at h
    obtain ⟨st2, e2, h⟩ := h
    obtain rfl : st2 = st' := by simpa [runProjected] using h
    exact ((C92_projection th cells st1).1 st2 e2).1
  | succ s ih =>
    intro t st st' h
    rw [runProjected, Option.bind_eq_some_iff] at h
    obtain ⟨st1, e1, h⟩ := h
    rw [Option.bind_eq_some_iff] at h
    obtain ⟨st2, e2, h⟩ := h
    exact ih _ _ _ h

end Projection

/-! ## Methods and errors -/

/-- **C92 (errors).** There is a step exactly if there are phases and all pairs have both coefficients. -/
theorem C92_errors (n : ℕ) :
    ((∃ l, M.program n = .ok l) ↔ n ≠ 0 ∧ ∀ i < n, ∀ j < i, (M.args.coeffA.lookup (i, j)).isSome ∧ (M.args.coeffEpsilon.lookup (i, j)).isSome) ∧
    (M.program n = .error .keyError ↔ ∃ i < n, ∃ j < i, M.args.coeffA.lookup (i, j) = none ∨ M.args.coeffEpsilon.lookup (i, j) = none) := by
  have hc : ∀ d : List ((ℕ × ℕ) × K), complete n d = true ↔ ∀ i < n, ∀ j < i, (d.lookup (i, j)).isSome := by
    intro d
    simp [complete]
  unfold Model.program
  by_cases h : ¬ complete n M.args.coeffA ∨ ¬ complete n M.args.coeffEpsilon
  · rw [if_pos h]
    simp only [hc] at h
    have h' : ∃ i < n, ∃ j < i, M.args.coeffA.lookup (i, j) = none ∨ M.args.coeffEpsilon.lookup (i, j) = none := by
      rcases h with h | h <;> push Not at h <;> obtain ⟨i, hi, j, hj, h⟩ := h
      · exact ⟨i, hi, j, hj, .inl (by simpa only [Bool.not_eq_true, Option.isSome_eq_false_iff, Option.isNone_iff_eq_none] using h)⟩
      · exact ⟨i, hi, j, hj, .inr (by simpa only [Bool.not_eq_true, Option.isSome_eq_false_iff, Option.isNone_iff_eq_none] using h)⟩
    refine ⟨⟨fun ⟨l, e⟩ => absurd e (by simp), fun ⟨_, h2⟩ => ?_⟩, ⟨fun _ => h', fun _ => rfl⟩⟩
    obtain ⟨i, hi, j, hj, h'⟩ := h'
    rcases h' with h' | h' <;> simpa [h'] using h2 i hi j hj
  · rw [if_neg h]
    push Not at h
    simp only [hc] at h
    have h' : ¬ ∃ i < n, ∃ j < i, M.args.coeffA.lookup (i, j) = none ∨ M.args.coeffEpsilon.lookup (i, j) = none := by
      rintro ⟨i, hi, j, hj, h' | h'⟩
      · simpa [h'] using h.1 i hi j hj
      · simpa [h'] using h.2 i hi j hj
    by_cases h0 : n = 0
    · rw [if_pos h0]
      exact ⟨⟨fun ⟨l, e⟩ => absurd e (by simp), fun ⟨h1, _⟩ => absurd h0 h1⟩, ⟨fun e => absurd e (by simp), fun e => absurd e h'⟩⟩
    · rw [if_neg h0]
      exact ⟨⟨fun _ => ⟨h0, fun i hi j hj => ⟨h.1 i hi j hj, h.2 i hi j hj⟩⟩, fun _ => ⟨_, rfl⟩⟩, ⟨fun e => absurd e (by simp), fun e => absurd e h'⟩⟩

/-- **C92 (velocity).** The order parameters are not advected with the velocity of the flow: what the getter computes from the populations after the step
lacks half of the force per density, which the method of the flow adds, whatever the force model. -/
theorem C92_velocity (csSq : K) (k : ForceKind) (F : Fin D → K) (f : Fin Q → K) (a : Fin D) :
    M.velocity f a = ((⟨true, false, 1, some (k, F)⟩ : Cqc K D).output csSq (fun q a => (M.directions q a : K)) f).velocity a - F a / (2 * ∑ q, f q) := by
  simp [Model.velocity, Cqc.output, Cqc.reference, defaultVelocityShift]

/-- **C92 (methods).** For every predefined stencil with weights, the compressible methods with the discrete Maxwellian and every force model but `CentralMoment`
and `He` meet the hypothesis on the flow, and the collision of an order parameter those on the order parameters. -/
theorem C92_methods [CharZero K] [DecidableEq K] : ∀ e ∈ Tables.predefined, ∀ (o : MaxwellOptions K e.2.2)
    (cq : (Fin (e.2.2.headD []).length → K) → Cqc K (e.2.2.headD []).length) (k : ForceKind), k ≠ .centralMoment → k ≠ .he →
    (∀ F, o.Valid (cq F) ∧ (cq F).zeroCentered = false ∧ (cq F).force = some (k, F)) →
    ∀ h : ∀ F, (o.method (cq F)).relax.length = e.2.2.length,
    (defaultMomentSet (e.2.2.headD []).length e.2.2.length).isSome →
    ∃ (collide : (Fin (e.2.2.headD []).length → K) → (Fin e.2.2.length → K) → Fin e.2.2.length → K)
      (chCollide : K → K → (Fin (e.2.2.headD []).length → K) → (Fin e.2.2.length → K) → Fin e.2.2.length → K),
      (∀ F, ((o.withForce (cq F) (h F) k F).method (cq F)).getCollisionRule = .ok (collide F)) ∧
      (∀ c mu v, chRule e.2.2 c mu v = .ok (chCollide c mu v)) ∧
      (∀ q, layers (PhaseFieldRun.Spec.directions e.2.2 q) ≤ 1) ∧
      (∀ F f, ∑ q, f q ≠ 0 → ∑ q, collide F f q = ∑ q, f q) ∧
      (∀ c mu v f q, chCollide c mu v f q = Spec.equilibrium (PhaseFieldRun.Spec.directions e.2.2) (weightVec e.2.2 o.weights) c mu v q) ∧
      ∀ c mu v f, ∑ q, chCollide c mu v f q = c := by
  intro e he o cq k hk hk' hv h hd
  have h1 := fun F => C23_predefined e he o (cq F) (hv F).1 (h F) k F hk (fun h => absurd h hk') (hv F).2.2
  choose collide hc using h1
  have hw := (hv fun _ => 0).1.weights
  have h2 := fun c mu v => C92_collision (K := K) e he o.weights hw hd c mu v
  choose chCollide hch using h2
  refine ⟨collide, chCollide, fun F => (hc F).1, fun c mu v => (hch c mu v).1, PhaseFieldRun.predefined_layers e he (by rw [hw]; rfl), fun F f hf => ?_,
    fun c mu v f => ((hch c mu v).2 f).1, fun c mu v f => ((hch c mu v).2 f).2.1⟩
  exact ((hc F).2 f fun _ => by simpa [Cqc.equilibriumInput, (hv F).2.1] using hf).1

/-! ## A third phase between two others -/

/-- Three by one cells -/
abbrev Witness.grid : Fin (Tables.D2Q9_uk.headD []).length → ℕ := fun a => if a.val = 0 then 3 else 1

instance : ∀ a, NeZero (Witness.grid a) := fun a => ⟨by unfold Witness.grid; split_ifs <;> decide⟩

/-- The first phase everywhere, in the first cell half of it and half of the second; no third phase -/
def Witness.start : Arrays Arr (Values ℚ) (Tables.D2Q9_uk.headD []).length := fun a y k =>
  if k = 0 then (match a with
    | .phi 0 => if y ⟨0, by decide⟩ = 0 then 1 / 2 else 1
    | .phi 1 => if y ⟨0, by decide⟩ = 0 then 1 / 2 else 0
    | _ => 0) else 0

/-- **C92 (absent phases).** A third phase comes out of nothing if the coefficient of triples is not zero, and with a negative value: on D2Q9, beside a cell with
equal parts of the two others. -/
theorem C92_third_phase_arises (M : Model ℚ (Tables.D2Q9_uk.headD []).length Tables.D2Q9_uk.length) (hd : M.directions = PhaseFieldRun.Spec.directions Tables.D2Q9_uk)
    (hM : ∀ c mu v f q, M.chCollide c mu v f q = Spec.equilibrium M.directions (weightVec Tables.D2Q9_uk ((getWeights Tables.D2Q9_uk).getD [])) c mu v q)
    {l : List (Op Arr (Values ℚ) (Tables.D2Q9_uk.headD []).length)} (hl : M.program 3 = .ok l) (order : GhostLayers.Schedule _) (ho : GhostLayers.Spec.Valid Witness.grid order) :
    ∃ st', runSteps Witness.grid 2 order l 0 1 Witness.start = some st' ∧ (∀ y, Witness.start (.phi 2) y 0 = 0) ∧
      GhostLayers.Spec.domain (size := Witness.grid) st' (.phi 2) 0 0 = -M.args.gabd / 4 := by
  obtain ⟨st1, st', e1, e2, h⟩ := C92_step M (size := Witness.grid) (by rw [hd]; decide +kernel) hl order ho 0 0 Witness.start
  cases e1
  refine ⟨st', e2, fun y => rfl, ?_⟩
  refine (C92_absent_step h hM ⟨⟨0, by decide⟩, rfl, by rw [hd]; decide +kernel⟩ 2 (fun y => rfl) (by decide +kernel) 0).trans ?_
  rw [hd]
  have : ((∑ q, weightVec (K := ℚ) Tables.D2Q9_uk ((getWeights Tables.D2Q9_uk).getD []) q * Spec.pairs (fun j : Fin 3 =>
      GhostLayers.Spec.domain (size := Witness.grid) Witness.start (.phi j) (0 - GhostLayers.Spec.toTorus Witness.grid (PhaseFieldRun.Spec.directions Tables.D2Q9_uk q)) 0) 2) -
      Spec.pairs (fun j : Fin 3 => GhostLayers.Spec.domain (size := Witness.grid) Witness.start (.phi j) 0 0) 2) = -1 / 12 := by
    decide +kernel
  rw [this]
  ring

/-! ## Examples -/

/-- Some order of the cells -/
noncomputable def Witness.order (size : Fin D → ℕ) : GhostLayers.Schedule D := fun _ e => (Fintype.piFinset fun i => Finset.Ico (-(e : ℤ)) (size i + e)).toList

theorem Witness.order_valid (size : Fin D → ℕ) : GhostLayers.Spec.Valid size (Witness.order size) := by
  intro t e
  refine ⟨Finset.nodup_toList _, fun y => ?_⟩
  simp [Witness.order, Within]

/-- D2Q9 with the rates of `ForceExample` for the flow, and three phases with the same coefficients -/
def Witness.args (g : ℚ) : Args ℚ where
  coeffA := [((1, 0), 1), ((2, 0), 1), ((2, 1), 1)]
  coeffEpsilon := [((1, 0), 1), ((2, 0), 1), ((2, 1), 1)]
  gabd := g
  alpha := 1
  penaltyFactor := 1 / 100

/-- The hypotheses are met: with methods of the package, one and three steps from a state with three phases in three cells -/
example : ∃ (M : Model ℚ (Tables.D2Q9_uk.headD []).length Tables.D2Q9_uk.length) (l : _), M.program 3 = .ok l ∧
    (∃ st', runSteps Witness.grid 2 (Witness.order Witness.grid) l 0 3 Witness.start = some st' ∧
      ∑ x, GhostLayers.Spec.domain (size := Witness.grid) st' (.phi 0) x 0 = 5 / 2) ∧
    (∃ st', runSteps Witness.grid 2 (Witness.order Witness.grid) l 0 1 Witness.start = some st' ∧
      GhostLayers.Spec.domain (size := Witness.grid) st' (.phi 2) 0 0 = -1 / 4) := by
  have he : ("D2Q9", "uk", Tables.D2Q9_uk) ∈ Tables.predefined := by decide +kernel
  obtain ⟨collide, chCollide, -, -, h1, h2, h3, h4⟩ := C92_methods _ he { ForceExample.o with deviationOnly := false }
    (fun F => ⟨true, false, 1, some (.guo, F)⟩) .guo (by decide) (by decide)
    (fun F => ⟨⟨ForceExample.valid.offered, ForceExample.valid.weights, rfl, (fun h => absurd h (by decide)), (fun h => absurd h Bool.false_ne_true), .inl (by decide)⟩, rfl, rfl⟩)
    (fun F => (by decide +kernel : ForceExample.o.relax.length = 9)) (by decide +kernel)
  let M : Model ℚ (Tables.D2Q9_uk.headD []).length Tables.D2Q9_uk.length :=
    ⟨Witness.args 1, fun o => if o = 0 then -4 else 0, fun _ _ => 0, PhaseFieldRun.Spec.directions Tables.D2Q9_uk, collide, fun _ => 0, fun _ _ => 0, chCollide⟩
  obtain ⟨l, hl⟩ : ∃ l, M.program 3 = .ok l := (C92_errors M 3).1.2 ⟨by decide, (by decide +kernel :
    ∀ i < 3, ∀ j < i, ((Witness.args 1).coeffA.lookup (i, j)).isSome ∧ ((Witness.args 1).coeffEpsilon.lookup (i, j)).isSome)⟩
  obtain ⟨st', e, h, -⟩ := C92_conservation (M := M) (size := Witness.grid) h1 h4 h2 hl (Witness.order Witness.grid) (Witness.order_valid _) 0 3 Witness.start
  obtain ⟨st'', e'', -, h''⟩ := C92_third_phase_arises M rfl h3 hl (Witness.order Witness.grid) (Witness.order_valid _)
  refine ⟨M, l, hl, ⟨st', e, (h 0 (by decide)).trans (by decide +kernel)⟩, ⟨st'', e'', h''.trans ?_⟩⟩
  simp [M, Witness.args]

/-- Coefficients of an interface of width 8 -/
example : ∃ P : Args ℝ, ∀ i x, potential P (fun f => deriv (deriv f)) ![AllenCahn.profile 8, fun x => 1 - AllenCahn.profile 8 x] i x =
    AllenCahn.profile 8 x * (1 - AllenCahn.profile 8 x) / 4 := by
  refine ⟨⟨[((1, 0), 1)], [((1, 0), 1)], 0, 1, 1 / 100⟩, fun i x => ?_⟩
  have := (C92_planar_interface ⟨[((1, 0), 1)], [((1, 0), 1)], 0, 1, 1 / 100⟩ (W := 8) (a := 1) (by norm_num) (by norm_num) (by simp [entry])
    (by simp [entry]; norm_num)).1 i x
  rw [this, mul_one]

/-- The projection changes the amounts: of the first phase there is less afterwards. -/
example : ∃ st', project (1 / 10 ^ 18 : ℚ) 2 [fun _ : Fin 1 => 0] (fun a _ k => if k = 0 then (match a with | .phi 0 => 6 / 5 | .phi 1 => -1 / 5 | _ => 0) else 0) = some st' ∧
    Simplex.Spec.InSimplex (fun i : Fin 2 => st' (.phi i) (fun _ => 0) 0) ∧ st' (.phi 0) (fun _ => 0) 0 = 1 := by
  obtain ⟨st', e⟩ := (C92_projection (n := 2) (1 / 10 ^ 18 : ℚ) [fun _ : Fin 1 => 0]
    (fun a _ k => if k = 0 then (match a with | .phi 0 => 6 / 5 | .phi 1 => -1 / 5 | _ => 0) else 0)).2 (by norm_num) (by
      intro y _
      simp [Fin.sum_univ_two]
      norm_num)
  refine ⟨st', e, ((C92_projection _ _ _).1 st' e).1 _ (by simp), ?_⟩
  have : (project (1 / 10 ^ 18 : ℚ) 2 [fun _ : Fin 1 => 0] (fun a _ k => if k = 0 then (match a with | .phi 0 => 6 / 5 | .phi 1 => -1 / 5 | _ => 0) else 0)).map
      (fun st => st (.phi 0) (fun _ => 0) 0) = some 1 := by decide +kernel
  rw [e] at this
  exact Option.some.inj this

/-- Two phases on a ring -/
example (c : ZMod 5 → ℚ) (x : ZMod 5) : interfacial (Witness.args 0) (fun f x => f (x + 1) + f (x - 1) - 2 * f x) ![c, fun y => 1 - c y] 0 x =
    -(c (x + 1) + c (x - 1) - 2 * c x) := by
  have := (C92_two_phases (Witness.args 0) (fun f (x : ZMod 5) => f (x + 1) + f (x - 1) - 2 * f x) (by intros; ring) (by intros; norm_num) c x).1
  rw [this]
  simp [Witness.args, entry]

end Nestler
end Lbm
