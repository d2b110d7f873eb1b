/-
Helper lemmas: what one sweep over the cells does to the arrays.
-/
import Verif.StreamingLemmas
import Mathlib.Data.List.Perm.Basic
import Mathlib.Algebra.Group.Hom.Basic
import Mathlib.Data.List.FinRange
import Mathlib.Tactic.Abel

set_option linter.unusedSectionVars false

namespace Lbm

variable {D : ℕ} {G V : Type} [AddCommGroup G] [DecidableEq G]

theorem foldl_update_not_mem {ι L : Type} [DecidableEq L] (l : ι → L) (o : ι → V) (is : List ι) (d : L → V) (k : L)
    (hk : ∀ i ∈ is, k ≠ l i) : is.foldl (fun f i => Function.update f (l i) (o i)) d k = d k := by
  induction is generalizing d with
  | nil => rfl
  | cons i is ih =>
    rw [List.foldl_cons, ih _ fun j hj => hk j (List.mem_cons_of_mem _ hj),
      Function.update_of_ne (hk i (List.mem_cons_self ..))]

theorem foldl_update_mem {ι L : Type} [DecidableEq L] {l : ι → L} (hl : Function.Injective l) (o : ι → V)
    (is : List ι) (d : L → V) (i : ι) (hi : i ∈ is) :
    is.foldl (fun f i => Function.update f (l i) (o i)) d (l i) = o i := by
  induction is generalizing d with
  | nil => cases hi
  | cons j is ih =>
    rw [List.foldl_cons]
    by_cases h : i ∈ is
    · exact ih _ h
    · obtain rfl : i = j := by simpa [h] using hi
      rw [foldl_update_not_mem, Function.update_self]
      intro j hj hij
      exact h (by rw [hl hij]; exact hj)

section
variable {Q : ℕ} (φ : Vec D →+ G)

theorem loc_inj {a : Fin Q → Access D Q} (ha : Function.Injective fun i => (a i).2) {x y : G} {i j : Fin Q}
    (h : loc φ x (a i) = loc φ y (a j)) : x = y ∧ i = j := by
  have h' : (x + φ (a i).1, (a i).2) = (y + φ (a j).1, (a j).2) := h
  have h2 : (a i).2 = (a j).2 := (Prod.mk.inj h').2
  obtain rfl : i = j := ha h2
  have h1 : x + φ (a i).1 = y + φ (a i).1 := (Prod.mk.inj h').1
  exact ⟨add_right_cancel h1, rfl⟩

theorem loc_injective {a : Fin Q → Access D Q} (ha : Function.Injective fun i => (a i).2) (x : G) :
    Function.Injective fun i => loc φ x (a i) := fun _ _ h => (loc_inj φ ha h).2

variable {rd wr : Fin Q → Access D Q} (C : G → (Fin Q → V) → Fin Q → V)

theorem cellUpdate_self (hw : Function.Injective fun i => (wr i).2) (x : G) (src dst : G × Fin Q → V) (i : Fin Q) :
    cellUpdate φ rd wr C x src dst (loc φ x (wr i)) = C x (fun j => src (loc φ x (rd j))) i :=
  foldl_update_mem (loc_injective φ hw x) _ _ _ _ (List.mem_finRange i)

theorem cellUpdate_other (x : G) (src dst : G × Fin Q → V) (k : G × Fin Q) (hk : ∀ i, k ≠ loc φ x (wr i)) :
    cellUpdate φ rd wr C x src dst k = dst k :=
  foldl_update_not_mem _ _ _ _ _ fun i _ => hk i

theorem sweepTwo_other (cells : List G) (src dst : G × Fin Q → V) (k : G × Fin Q)
    (hk : ∀ x ∈ cells, ∀ i, k ≠ loc φ x (wr i)) : sweepTwo φ rd wr C cells src dst k = dst k := by
  unfold sweepTwo
  induction cells generalizing dst with
  | nil => rfl
  | cons x xs ih =>
    rw [List.foldl_cons, ih _ fun y hy => hk y (List.mem_cons_of_mem _ hy),
      cellUpdate_other _ _ _ _ _ _ (hk x (List.mem_cons_self ..))]

theorem sweepTwo_mem (hw : Function.Injective fun i => (wr i).2) (cells : List G)
    (src dst : G × Fin Q → V) (x : G) (hx : x ∈ cells) (i : Fin Q) :
    sweepTwo φ rd wr C cells src dst (loc φ x (wr i)) = C x (fun j => src (loc φ x (rd j))) i := by
  unfold sweepTwo
  induction cells generalizing dst with
  | nil => cases hx
  | cons y xs ih =>
    rw [List.foldl_cons]
    by_cases h : x ∈ xs
    · exact ih _ h
    · obtain rfl : x = y := by simpa [h] using hx
      have := sweepTwo_other φ (rd := rd) (wr := wr) C xs src (cellUpdate φ rd wr C x src dst) (loc φ x (wr i)) (by
        intro z hz j he
        exact h (by rw [(loc_inj φ hw he).1]; exact hz))
      unfold sweepTwo at this
      rw [this, cellUpdate_self _ _ hw]

theorem sweepInplace_other (cells : List G) (f : G × Fin Q → V) (k : G × Fin Q)
    (hk : ∀ x ∈ cells, ∀ i, k ≠ loc φ x (wr i)) : sweepInplace φ rd wr C cells f k = f k := by
  unfold sweepInplace
  induction cells generalizing f with
  | nil => rfl
  | cons x xs ih =>
    rw [List.foldl_cons, ih _ fun y hy => hk y (List.mem_cons_of_mem _ hy),
      cellUpdate_other _ _ _ _ _ _ (hk x (List.mem_cons_self ..))]

theorem sweepInplace_mem (hr : Function.Injective fun i => (rd i).2) (hw : Function.Injective fun i => (wr i).2)
    {σ : Fin Q → Fin Q} (hσ : ∀ i, wr i = rd (σ i)) (cells : List G) (hn : cells.Nodup) (f : G × Fin Q → V)
    (x : G) (hx : x ∈ cells) (i : Fin Q) :
    sweepInplace φ rd wr C cells f (loc φ x (wr i)) = C x (fun j => f (loc φ x (rd j))) i := by
  unfold sweepInplace
  induction cells generalizing f with
  | nil => cases hx
  | cons y xs ih =>
    rw [List.foldl_cons]
    have hn' := List.nodup_cons.1 hn
    by_cases h : x ∈ xs
    · rw [ih hn'.2 _ h]
      congr 1; funext j
      apply cellUpdate_other
      intro i' he
      rw [hσ] at he
      have := (loc_inj φ hr he).1
      exact hn'.1 (this ▸ h)
    · obtain rfl : x = y := by simpa [h] using hx
      have := sweepInplace_other φ (rd := rd) (wr := wr) C xs (cellUpdate φ rd wr C x f f) (loc φ x (wr i)) (by
        intro z hz j he
        exact h (by rw [(loc_inj φ hw he).1]; exact hz))
      unfold sweepInplace at this
      rw [this, cellUpdate_self _ _ hw]

end

/-- Semantics of one time step of a pattern. -/
theorem kernelStep_sem (φ : Vec D →+ G) {S : Stencil D} {p ts a rd wr rd'} (F : StepFacts S p ts a rd wr rd')
    (C : G → (Fin S.Q → V) → Fin S.Q → V) {cells : List G} (hn : cells.Nodup)
    (s : (G × Fin S.Q → V) × (G × Fin S.Q → V)) :
    ∃ s', kernelStep φ S a C cells s = some s' ∧
      (∀ x ∈ cells, ∀ i, s'.1 (loc φ x (wr i)) = C x (fun j => s.1 (loc φ x (rd j))) i) ∧
      (∀ k, (∀ x ∈ cells, ∀ i, k ≠ loc φ x (wr i)) → s'.1 k = if a.isInplace then s.1 k else s.2 k) := by
  unfold kernelStep
  rw [F.read, F.write]
  by_cases h : a.isInplace = true
  · obtain ⟨σ, _, hσ, -⟩ := F.inplace h
    refine ⟨_, by simp [h]; rfl, ?_, ?_⟩
    · exact fun x hx i => sweepInplace_mem φ C F.rd_inj F.wr_inj hσ cells hn _ x hx i
    · intro k hk; simp only [h, if_true]; exact sweepInplace_other φ C cells _ k hk
  · refine ⟨_, by simp [h]; rfl, ?_, ?_⟩
    · exact fun x hx i => sweepTwo_mem φ C F.wr_inj cells _ _ x hx i
    · intro k hk; simp only [h]; exact sweepTwo_other φ C cells _ _ k hk

theorem loc_wr (φ : Vec D →+ G) {S : Stencil D} {p ts a rd wr rd'} (F : StepFacts S p ts a rd wr rd') (x : G)
    (i : Fin S.Q) : loc φ x (wr i) = loc φ (x + φ (S.c i)) (rd' i) := by
  obtain ⟨h1, h2⟩ := F.chain i
  unfold loc
  rw [h1, h2, map_add, add_assoc]

theorem stepTimestep_spec {p : String} (hp : p ∈ streamingPatterns) (t : ℕ) :
    ∃ ts, stepTimestep p t = some ts ∧ TsOk p ts ∧ stepTimestep p (t + 1) = some ts.next := by
  simp only [streamingPatterns, List.mem_cons, List.not_mem_nil, or_false] at hp
  have two : ∀ p, getTimesteps p = some [.both] → ∃ ts, stepTimestep p t = some ts ∧ TsOk p ts ∧
      stepTimestep p (t + 1) = some ts.next := by
    intro p h
    refine ⟨.both, ?_, ⟨_, h, by simp⟩, ?_⟩ <;> simp [stepTimestep, h, Nat.mod_one, Timestep.next]
  have one : ∀ p, getTimesteps p = some [.even, .odd] → ∃ ts, stepTimestep p t = some ts ∧ TsOk p ts ∧
      stepTimestep p (t + 1) = some ts.next := by
    intro p h
    rcases Nat.mod_two_eq_zero_or_one t with h0 | h0
    · refine ⟨.even, ?_, ⟨_, h, by simp⟩, ?_⟩
      · simp [stepTimestep, h, h0]
      · have : (t + 1) % 2 = 1 := by omega
        simp [stepTimestep, h, this, Timestep.next]
    · refine ⟨.odd, ?_, ⟨_, h, by simp⟩, ?_⟩
      · simp [stepTimestep, h, h0]
      · have : (t + 1) % 2 = 0 := by omega
        simp [stepTimestep, h, this, Timestep.next]
  rcases hp with rfl | rfl | rfl | rfl | rfl | rfl
  · exact two _ rfl
  · exact two _ rfl
  · exact one _ rfl
  · exact one _ rfl
  · exact one _ rfl
  · exact one _ rfl

/-- All facts about step number `t` of a run. -/
theorem runFacts {S : Stencil D} {p : String} (hs : Supported S p) (t : ℕ) :
    ∃ ts a rd wr rd', stepTimestep p t = some ts ∧ StepFacts S p ts a rd wr rd' ∧
      (∀ f : G × Fin S.Q → V, ∀ φ, readPops φ S p t f = some fun x i => f (loc φ x (rd i))) ∧
      (∀ f : G × Fin S.Q → V, ∀ φ, writtenPops φ S p t f = some fun x i => f (loc φ x (wr i))) ∧
      (∀ f : G × Fin S.Q → V, ∀ φ, readPops φ S p (t + 1) f = some fun x i => f (loc φ x (rd' i))) := by
  obtain ⟨ts, h1, h2, h3⟩ := stepTimestep_spec hs.1 t
  obtain ⟨a, rd, wr, rd', F⟩ := stepFacts hs h2
  obtain ⟨a', ha', hrd'⟩ := F.next
  refine ⟨ts, a, rd, wr, rd', h1, F, ?_, ?_, ?_⟩
  · intro f φ; simp [readPops, h1, F.acc, F.read]
  · intro f φ; simp [writtenPops, h1, F.acc, F.write]
  · intro f φ; simp [readPops, h3, ha', hrd']

end Lbm
