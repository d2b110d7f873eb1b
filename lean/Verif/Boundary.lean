/-
Model of link-wise boundary kernels: `boundaries/boundaryhandling.py` (kernel creation) and the parts of
`boundaries/boundaryconditions.py` that decide which population is written.
-/
import Verif.Indexing
import Mathlib.Data.Finset.Basic

set_option linter.unusedSectionVars false

namespace Lbm

variable {D : ℕ} {G V : Type} [AddCommGroup G] [DecidableEq G]

/-- What a boundary rule computes for a link `(cell, dir)`: the value assigned to `f_in(inv_dir[dir])`, from the
post-collision populations `f_out` of all cells and the incoming populations `f_in` of all cells
(`boundaryconditions.py`, the `__call__` methods that assign only `f_in(inv_dir[dir])`). -/
abbrev Rule (G : Type) (Q : ℕ) (V : Type) := G → Fin Q → (G → Fin Q → V) → (G → Fin Q → V) → V

/-- The kernel of `create_lattice_boltzmann_boundary_kernel` (`boundaryhandling.py:151-199`) for such a rule: one loop
iteration per entry `(cell, dir)` of the index list, in the order of the list, on the same array.
The proxies are resolved as in `Verif/Indexing.lean` (see C07 for the table-driven code). -/
def linkKernel (φ : Vec D →+ G) {S : Stencil D} (ix : Indexing S) (R : Rule G S.Q V) :
    List (G × Fin S.Q) → (G × Fin S.Q → V) → Option (G × Fin S.Q → V)
  | [], f => some f
  | (y, j) :: links, f => do
    let j' ← Indexing.inverseDirIndex S j
    linkKernel φ ix R links
      (Function.update f (loc φ y (ix.inn j'))
        (R y j (fun x i => f (loc φ x (ix.out i))) (fun x i => f (loc φ x (ix.inn i)))))

/-- `NoSlip.__call__` (`boundaryconditions.py:128-139`): `f_in(inv_dir[dir]) = f_out(dir)`. -/
def noSlipRule {Q : ℕ} : Rule G Q V := fun y j fout _ => fout y j

/-- The boundary handling call between step `t` and `t+1` of a pattern (`boundaryhandling.py:36-39` and
`_create_boundary_kernel`, lines 67-72): `prev_timestep` is the timestep of step `t`. -/
def boundaryHook (φ : Vec D →+ G) (S : Stencil D) (p : String) (R : Rule G S.Q V)
    (links : List (G × Fin S.Q)) (t : ℕ) (f : G × Fin S.Q → V) : Option (G × Fin S.Q → V) := do
  let ts ← stepTimestep p t
  let ix ← Indexing.make S p ts
  linkKernel φ ix R links f

/-- The rule looks, at this link, only at post-collision populations of fluid cells and at incoming populations whose
source is a fluid cell. -/
def Rule.Local (φ : Vec D →+ G) (S : Stencil D) (fluid : Set G) (R : Rule G S.Q V) (l : G × Fin S.Q) : Prop :=
  ∀ g g' h h', (∀ z ∈ fluid, ∀ i, g z i = g' z i) → (∀ z i, z - φ (S.c i) ∈ fluid → h z i = h' z i) →
    R l.1 l.2 g h = R l.1 l.2 g' h'

/-- A link of a fluid region: a fluid cell and a direction pointing out of the region. This is what the pystencils
index list contains for a boundary covering the outside of the region. -/
def IsLink (φ : Vec D →+ G) (S : Stencil D) (fluid : Set G) (l : G × Fin S.Q) : Prop :=
  l.1 ∈ fluid ∧ l.1 + φ (S.c l.2) ∉ fluid

theorem linkKernel_sem (φ : Vec D →+ G) {S : Stencil D} {p ts a rd wr rd'} (hv : S.Valid) (hc : S.InvClosed)
    (F : StepFacts S p ts a rd wr rd') (R : Rule G S.Q V) (fluid : Set G)
    (links : List (G × Fin S.Q)) (hl : ∀ l ∈ links, IsLink φ S fluid l)
    (hR : ∀ l ∈ links, R.Local φ S fluid l) (f : G × Fin S.Q → V) :
    ∃ f', linkKernel φ ⟨wr, rd'⟩ R links f = some f' ∧
      (∀ y j j', (y, j) ∈ links → S.c j' = -S.c j → f' (loc φ y (rd' j')) =
        R y j (fun x i => f (loc φ x (wr i))) (fun x i => f (loc φ x (rd' i)))) ∧
      (∀ k, (∀ y j j', (y, j) ∈ links → S.c j' = -S.c j → k ≠ loc φ y (rd' j')) → f' k = f k) := by
  obtain ⟨inv, hidx, hcinv, hinv2, -⟩ := exists_inv hv hc
  induction links generalizing f with
  | nil => exact ⟨f, rfl, by simp, fun _ _ => rfl⟩
  | cons l links ih =>
    obtain ⟨y, j⟩ := l
    set f1 := Function.update f (loc φ y (rd' (inv j))) (R y j (fun x i => f (loc φ x (wr i)))
      (fun x i => f (loc φ x (rd' i)))) with hf1
    obtain ⟨f', h1, h2, h3⟩ := ih (fun l hl' => hl l (List.mem_cons_of_mem _ hl'))
      (fun l hl' => hR l (List.mem_cons_of_mem _ hl')) f1
    have huniq : ∀ {j j'}, S.c j' = -S.c j → j' = inv j := fun {j j'} h => hv (by rw [h, hcinv])
    have hread : ∀ z ∈ fluid, ∀ i, f1 (loc φ z (wr i)) = f (loc φ z (wr i)) := by
      intro z hz i
      rw [hf1, Function.update_of_ne]
      intro he
      rw [loc_wr φ F] at he
      obtain ⟨e1, e2⟩ := loc_inj φ F.rd'_inj he
      have := (hl (y, j) (by simp)).2
      apply this
      rw [← e1, e2, hcinv, map_neg, neg_add_cancel_right]
      exact hz
    have hj : Indexing.inverseDirIndex S j = some (inv j) := hidx j
    refine ⟨f', by simp [linkKernel, hj, h1, ← hf1], ?_, ?_⟩
    · intro z i i' hm hi
      by_cases hin : (z, i) ∈ links
      · rw [h2 z i i' hin hi]
        refine hR (z, i) hm _ _ _ _ hread ?_
        intro x k hx
        have := hread _ hx k
        rw [loc_wr φ F, sub_add_cancel] at this
        exact this
      · obtain ⟨rfl, rfl⟩ : z = y ∧ i = j := by
          rcases List.mem_cons.1 hm with h | h
          · exact Prod.mk.inj h
          · exact absurd h hin
        rw [h3, huniq hi, hf1, Function.update_self]
        intro y' k k' hm' hk he
        obtain ⟨rfl, rfl⟩ := loc_inj φ F.rd'_inj he
        apply hin
        have : i = k := hv (by rw [← neg_inj, ← hi, hk])
        rw [this]; exact hm'
    · intro k hk
      rw [h3 k fun y' i i' hm hi => hk y' i i' (List.mem_cons_of_mem _ hm) hi, hf1, Function.update_of_ne]
      exact hk y j (inv j) (by simp) (hcinv j)

theorem boundaryHook_sem (φ : Vec D →+ G) {S : Stencil D} {p : String} (hs : Supported S p) (hc : S.InvClosed) (t : ℕ)
    (R : Rule G S.Q V) (fluid : Set G)
    (links : List (G × Fin S.Q)) (hl : ∀ l ∈ links, IsLink φ S fluid l)
    (hR : ∀ l ∈ links, R.Local φ S fluid l) (f : G × Fin S.Q → V) :
    ∃ f' w r r', boundaryHook φ S p R links t f = some f' ∧ writtenPops φ S p t f = some w ∧
      readPops φ S p (t + 1) f = some r ∧ readPops φ S p (t + 1) f' = some r' ∧
      (∀ y j j', (y, j) ∈ links → S.c j' = -S.c j → r' y j' = R y j w r) ∧
      (∀ x i, (∀ j, S.c i = -S.c j → (x, j) ∉ links) → r' x i = r x i) := by
  obtain ⟨ts, h1, h2, h3⟩ := stepTimestep_spec hs.1 t
  obtain ⟨a, rd, wr, rd', F⟩ := stepFacts hs h2
  obtain ⟨a', ha', hrd'⟩ := F.next
  have hv := hs.2.1
  obtain ⟨inv, hidx, hcinv, hinv2, -⟩ := exists_inv hv hc
  have hmk : Indexing.make S p ts = some ⟨wr, rd'⟩ := by
    have hcol : collect (Indexing.inverseDirIndex S) = some inv := collect_eq_some.2 fun i => hidx i
    have hb : ¬ (ts = .both ∧ a.isInplace = true) := by
      rintro ⟨rfl, h⟩
      have h1 := F.acc
      have h2 := F.flag
      rw [h] at h2
      simp [getAccessor, h2] at h1
    unfold Indexing.make
    rw [F.flag]
    simp only [Option.bind_eq_bind, Option.bind_some]
    rw [if_neg hb]
    simp [F.acc, F.write, ha', hrd', hcol]
  obtain ⟨f', g1, g2, g3⟩ := linkKernel_sem φ hv hc F R fluid links hl hR f
  refine ⟨f', fun x i => f (loc φ x (wr i)), fun x i => f (loc φ x (rd' i)), fun x i => f' (loc φ x (rd' i)),
    by simp [boundaryHook, h1, hmk, g1], by simp [writtenPops, h1, F.acc, F.write],
    by simp [readPops, h3, ha', hrd'], by simp [readPops, h3, ha', hrd'], ?_, ?_⟩
  · intro y j j' hm hj; exact g2 y j j' hm hj
  · intro x i hno
    apply g3
    intro y j j' hm hj he
    obtain ⟨rfl, rfl⟩ := loc_inj φ F.rd'_inj he
    exact hno j hj hm

end Lbm
