/-
C116: what the copy kernel transfers.
-/
import Verif.CopyKernel
import Verif.Sweep
import Verif.Props.Streaming
import Mathlib.Data.Set.Finite.Basic
import Mathlib.Data.Set.Finite.List
import Mathlib.Data.Fintype.EquivFin

namespace Lbm
namespace CopyKernel

variable {D : ℕ} {G V : Type} [AddCommGroup G] [DecidableEq G]

open Classical in
theorem foldl_copy {ι L : Type} [DecidableEq L] (l : ι → L) (src : L → V) (is : List ι) (d : L → V) (k : L) :
    is.foldl (fun f i => Function.update f (l i) (src (l i))) d k = if ∃ i ∈ is, k = l i then src k else d k := by
  induction is generalizing d with
  | nil => simp
  | cons i is ih =>
    rw [List.foldl_cons, ih]
    by_cases h : ∃ j ∈ is, k = l j
    · rw [if_pos h, if_pos (by obtain ⟨j, hj, e⟩ := h; exact ⟨j, List.mem_cons_of_mem _ hj, e⟩)]
    · rw [if_neg h]
      by_cases hk : k = l i
      · subst hk
        rw [Function.update_self, if_pos ⟨i, List.mem_cons_self, rfl⟩]
      · rw [Function.update_of_ne hk, if_neg]
        rintro ⟨j, hj, e⟩
        rcases List.mem_cons.1 hj with rfl | hj
        · exact hk e
        · exact h ⟨j, hj, e⟩

open Classical in
theorem copyCell_apply (φ : Vec D →+ G) {Q : ℕ} (wr : Fin Q → Access D Q) (x : G) (src dst : G × Fin Q → V) (k : G × Fin Q) :
    copyCell φ wr x src dst k = if ∃ i, k = loc φ x (wr i) then src k else dst k := by
  unfold copyCell
  simp only
  rw [foldl_copy (fun i => loc φ x (wr i)) src (List.finRange Q) dst k]
  simp only [List.mem_finRange, true_and]

open Classical in
/-- C116. For every accessor, whether or not its accesses are distinct: at the locations that the cells write the destination holds
the source, everywhere else it is unchanged. -/
theorem C116_copy (φ : Vec D →+ G) (S : Stencil D) (a : Accessor D) (wr : Fin S.Q → Access D S.Q) (hw : a.write S = some wr)
    (cells : List G) (src dst : G × Fin S.Q → V) : copyKernel φ S a cells src dst =
      some fun k => if ∃ x ∈ cells, ∃ i, k = loc φ x (wr i) then src k else dst k := by
  unfold copyKernel
  rw [hw]
  simp only [Option.bind_eq_bind, Option.bind_some, pure, Option.some.injEq]
  induction cells generalizing dst with
  | nil => funext k; simp
  | cons y cells ih =>
    rw [List.foldl_cons, ih]
    funext k
    by_cases h : ∃ x ∈ cells, ∃ i, k = loc φ x (wr i)
    · rw [if_pos h, if_pos (by obtain ⟨x, hx, e⟩ := h; exact ⟨x, List.mem_cons_of_mem _ hx, e⟩)]
    · rw [if_neg h, copyCell_apply]
      by_cases hy : ∃ i, k = loc φ y (wr i)
      · rw [if_pos hy, if_pos ⟨y, List.mem_cons_self, hy⟩]
      · rw [if_neg hy, if_neg]
        rintro ⟨x, hx, e⟩
        rcases List.mem_cons.1 hx with rfl | hx
        · exact hy e
        · exact h ⟨x, hx, e⟩

/-- C116. With one array for both fields nothing changes. -/
theorem C116_same (φ : Vec D →+ G) (S : Stencil D) (a : Accessor D) (wr : Fin S.Q → Access D S.Q) (hw : a.write S = some wr)
    (cells : List G) (f : G × Fin S.Q → V) : copyKernelSame φ S a cells f = some f := by
  unfold copyKernelSame
  rw [hw]
  simp only [Option.bind_eq_bind, Option.bind_some, pure, Option.some.injEq]
  induction cells generalizing f with
  | nil => rfl
  | cons y cells ih =>
    rw [List.foldl_cons]
    have : copyCell φ wr y f f = f := by
      funext k
      rw [copyCell_apply]
      split_ifs <;> rfl
    rw [this, ih]

/-- C116. The post-collision populations of the cells are transferred. -/
theorem C116_outgoing (φ : Vec D →+ G) (S : Stencil D) (a : Accessor D) (wr : Fin S.Q → Access D S.Q) (hw : a.write S = some wr)
    (cells : List G) (src dst : G × Fin S.Q → V) : ∃ r, copyKernel φ S a cells src dst = some r ∧
      ∀ x ∈ cells, ∀ i, r (loc φ x (wr i)) = src (loc φ x (wr i)) := by
  classical
  exact ⟨_, C116_copy φ S a wr hw cells src dst, fun x hx i => if_pos ⟨x, hx, i, rfl⟩⟩

/-- C116. With the accessor of a time step of a streaming pattern: the population that the next time step reads in direction `i` in a
cell is that of the source if the cell it comes from is one of the cells, and that of the destination otherwise. -/
theorem C116_incoming (φ : Vec D →+ G) {S : Stencil D} {p : String} (hs : Supported S p) {ts : Timestep} (ht : TsOk p ts)
    (cells : List G) (src dst : G × Fin S.Q → V) : ∃ a a' rd r, getAccessor D p ts = some a ∧ getAccessor D p ts.next = some a' ∧
      a'.read S = some rd ∧ copyKernel φ S a cells src dst = some r ∧
      ∀ x i, r (loc φ x (rd i)) = if x - φ (S.c i) ∈ cells then src (loc φ x (rd i)) else dst (loc φ x (rd i)) := by
  classical
  obtain ⟨a, rd, wr, rd', F⟩ := stepFacts hs ht
  obtain ⟨a', ha', hr'⟩ := F.next
  refine ⟨a, a', rd', _, F.acc, ha', hr', C116_copy φ S a wr F.write cells src dst, fun x i => ?_⟩
  have hloc : loc φ x (rd' i) = loc φ (x - φ (S.c i)) (wr i) := by
    obtain ⟨h2, h1⟩ := F.chain i
    unfold loc
    rw [h1, map_add, h2]
    congr 1
    abel
  have hiff : (∃ y ∈ cells, ∃ j, loc φ x (rd' i) = loc φ y (wr j)) ↔ x - φ (S.c i) ∈ cells := by
    constructor
    · rintro ⟨y, hy, j, e⟩
      rw [hloc] at e
      rw [(loc_inj φ F.wr_inj e).1]; exact hy
    · exact fun h => ⟨_, h, i, hloc⟩
  simp only [hiff]

/-- C116. On a periodic domain with all its cells the destination is the source afterwards, for each pattern and time step. -/
theorem C116_periodic (φ : Vec D →+ G) {S : Stencil D} {p : String} (hs : Supported S p) {ts : Timestep} (ht : TsOk p ts)
    (cells : List G) (hall : ∀ x, x ∈ cells) (src dst : G × Fin S.Q → V) :
    ∃ a, getAccessor D p ts = some a ∧ copyKernel φ S a cells src dst = some src := by
  classical
  obtain ⟨a, rd, wr, rd', F⟩ := stepFacts hs ht
  refine ⟨a, F.acc, ?_⟩
  rw [C116_copy φ S a wr F.write]
  congr 1
  funext k
  obtain ⟨y, j⟩ := k
  obtain ⟨i, hi⟩ := (Finite.injective_iff_surjective.1 F.wr_inj) j
  refine if_pos ⟨y - φ (wr i).1, hall _, i, ?_⟩
  unfold loc
  rw [sub_add_cancel]
  exact Prod.ext rfl hi.symm

/-- C116. On the infinite lattice a copy over a finite number of cells never transfers everything these cells read next: in each
direction that moves, some cell reads a population of the old destination. -/
theorem C116_border {S : Stencil D} {p : String} (hs : Supported S p) {ts : Timestep} (ht : TsOk p ts) (cells : List (Vec D))
    (hne : cells ≠ []) (i : Fin S.Q) (hi : S.c i ≠ 0) (src dst : Vec D × Fin S.Q → V) :
    ∃ a a' rd r, getAccessor D p ts = some a ∧ getAccessor D p ts.next = some a' ∧ a'.read S = some rd ∧
      copyKernel (AddMonoidHom.id _) S a cells src dst = some r ∧
      ∃ x ∈ cells, r (loc (AddMonoidHom.id _) x (rd i)) = dst (loc (AddMonoidHom.id _) x (rd i)) := by
  obtain ⟨a, a', rd, r, h1, h2, h3, h4, h5⟩ := C116_incoming (AddMonoidHom.id (Vec D)) hs ht cells src dst
  refine ⟨a, a', rd, r, h1, h2, h3, h4, ?_⟩
  by_contra hcon
  push Not at hcon
  have hclosed : ∀ x ∈ cells, x - S.c i ∈ cells := by
    intro x hx
    by_contra hn
    refine hcon x hx ?_
    rw [h5 x i, if_neg]
    simpa using hn
  obtain ⟨x0, hx0⟩ := List.exists_mem_of_ne_nil _ hne
  have horbit : ∀ n : ℕ, x0 - n • S.c i ∈ cells := by
    intro n
    induction n with
    | zero => simpa using hx0
    | succ n ih =>
      have := hclosed _ ih
      rw [succ_nsmul, ← sub_sub]; exact this
  obtain ⟨k, hk⟩ := Function.ne_iff.1 hi
  have hinj : Function.Injective fun n : ℕ => x0 - n • S.c i := by
    intro m n hmn
    have h' : m • S.c i k = n • S.c i k := sub_right_injective (congrFun hmn k : x0 k - m • S.c i k = x0 k - n • S.c i k)
    rw [nsmul_eq_mul, nsmul_eq_mul] at h'
    exact_mod_cast mul_right_cancel₀ hk h'
  exact Set.infinite_of_injective_forall_mem (s := {x | x ∈ cells}) hinj horbit (List.finite_toSet cells)

/-- Concrete case: the nine-velocity stencil with a one-array and a two-array pattern on a 4 × 3 torus, and a direction that moves. -/
example : Supported exStencil "esotwist" ∧ TsOk "esotwist" .odd ∧ Supported exStencil "pull" ∧ TsOk "pull" .both ∧
    (∀ x, x ∈ (Finset.univ : Finset (ZMod 4 × ZMod 3)).toList) ∧ exStencil.c ⟨1, by decide +kernel⟩ ≠ 0 :=
  ⟨by decide +kernel, ⟨_, rfl, by decide⟩, by decide +kernel, ⟨_, rfl, by decide⟩, fun x => by simp, by decide +kernel⟩

/-- Concrete case: the accesses of the hypotheses exist, e.g. those of the pull pattern (the default of the kernel). -/
example : ∃ wr, (pull (D := 2)).write exStencil = some wr := ⟨_, rfl⟩

end CopyKernel
end Lbm
