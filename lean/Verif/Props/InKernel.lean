/-
Property theorems C70: boundary conditions inside the update kernel.
-/
import Verif.InKernel
import Verif.Props.Boundary
import Verif.StencilTables
import Mathlib.Algebra.Order.BigOperators.Group.Finset
import Mathlib.Algebra.BigOperators.Pi
import Mathlib.Algebra.BigOperators.Fin
import Mathlib.Tactic.Linarith
import Mathlib.Tactic.FinCases

set_option linter.unusedSectionVars false

namespace Lbm.InKernel

variable {D : ℕ} {V : Type}

/-! ### Specification -/

/-- The cells of the box: all but the ghost layer of thickness one. -/
def Spec.Inside (shape x : Vec D) : Prop := ∀ k, 1 ≤ x k ∧ x k < shape k - 1

instance (shape x : Vec D) : Decidable (Spec.Inside shape x) := inferInstanceAs (Decidable (∀ _, _))

/-- The outward normals of the faces of a box. -/
def Spec.Normal (d : Vec D) : Prop := ∃ k, d = Pi.single k 1 ∨ d = Pi.single k (-1)

/-- A population that leaves cell `x` with velocity `c` passes through the face with normal `d`. -/
def Spec.Crosses (shape x c d : Vec D) : Prop := ¬ Spec.Inside shape (x + d) ∧ ∑ k, d k * c k = 1

instance (shape x c d : Vec D) : Decidable (Spec.Crosses shape x c d) := inferInstanceAs (Decidable (_ ∧ _))

/-- The boundary condition responsible for such a population: the last listed one whose face it passes. -/
def Spec.wall {Q : ℕ} (spec : List (Vec D × LocalRule Q V)) (shape x c : Vec D) : Option (LocalRule Q V) :=
  ((spec.filter fun e => Spec.Crosses shape x c e.1).getLast?).map Prod.snd

/-- One time step in the box: a population arrives from the neighbouring cell if that is in the box, otherwise it is
made by the boundary condition from the populations of the cell itself. -/
def Spec.boxStep {Q : ℕ} (c : Fin Q → Vec D) (inv : Fin Q → Fin Q) (shape : Vec D)
    (wall : Vec D → Fin Q → (Fin Q → V) → V) (C : Vec D → (Fin Q → V) → Fin Q → V) (r : Vec D → Fin Q → V) :
    Vec D → Fin Q → V := fun x i =>
  if Spec.Inside shape (x - c i) then C (x - c i) (r (x - c i)) i else wall x (inv i) (C x (r x))

/-- `n` time steps. -/
def Spec.boxRun {Q : ℕ} (c : Fin Q → Vec D) (inv : Fin Q → Fin Q) (shape : Vec D)
    (wall : Vec D → Fin Q → (Fin Q → V) → V) (C : ℕ → Vec D → (Fin Q → V) → Fin Q → V) (r : Vec D → Fin Q → V) :
    ℕ → Vec D → Fin Q → V
  | 0 => r
  | n + 1 => Spec.boxStep c inv shape wall (C n) (Spec.boxRun c inv shape wall C r n)

/-! ### Faces and directions -/

theorem absDirection_eq (d : Vec D) (k : Fin D) : absDirection d k = |d k| := by
  unfold absDirection
  split_ifs with h
  · rw [abs_of_neg h]
  · rw [abs_of_nonneg (not_lt.1 h)]

theorem sum_finRange (f : Fin D → ℤ) : ((List.finRange D).map f).sum = ∑ k, f k := by
  rw [← List.ofFn_eq_map, List.sum_ofFn]

/-- C70: `border_conditions` accepts exactly the normals of the faces of a box and finds their axis. -/
theorem C70_axis (d : Vec D) (k : Fin D) : axis d = some k ↔ d = Pi.single k 1 ∨ d = Pi.single k (-1) := by
  unfold axis
  rw [sum_finRange]
  constructor
  · intro h
    split_ifs at h with hs
    have hk := List.find?_some h
    simp only [absDirection_eq, decide_eq_true_eq] at hk hs
    have hrest : ∀ j, j ≠ k → d j = 0 := by
      have hsum : ∑ j ∈ Finset.univ.erase k, |d j| = 0 := by
        have := Finset.add_sum_erase Finset.univ (fun j => |d j|) (Finset.mem_univ k)
        linarith
      rw [Finset.sum_eq_zero_iff_of_nonneg fun j _ => abs_nonneg _] at hsum
      intro j hj
      exact abs_eq_zero.1 (hsum j (by simp [hj]))
    rcases (abs_eq zero_le_one).1 hk with h1 | h1
    · left; funext j
      by_cases hj : j = k
      · subst hj; simp [h1]
      · simp [hj, hrest j hj]
    · right; funext j
      by_cases hj : j = k
      · subst hj; simp [h1]
      · simp [hj, hrest j hj]
  · intro h
    have habs : ∀ j, absDirection d j = if j = k then 1 else 0 := by
      intro j
      rw [absDirection_eq]
      by_cases hj : j = k
      · subst hj; rcases h with rfl | rfl <;> simp
      · rcases h with rfl | rfl <;> simp [hj]
    rw [if_pos (by simp [habs])]
    cases hf : (List.finRange D).find? fun j => decide (absDirection d j = 1) with
    | none =>
      rw [List.find?_eq_none] at hf
      have := hf k (List.mem_finRange k)
      simp [habs] at this
    | some j =>
      have := List.find?_some hf
      simp only [habs, decide_eq_true_eq] at this
      by_cases hj : j = k
      · rw [hj]
      · simp [hj] at this

example : axis (![0, -1, 0] : Vec 3) = some 1 ∧ axis (![1, 1, 0] : Vec 3) = none ∧ axis (![0, 0, 0] : Vec 3) = none ∧
    axis (![2, 0, 0] : Vec 3) = none := by decide

/-- C70: the border condition holds in a cell of the box exactly if the neighbour in the direction of the normal is not
in the box. -/
theorem C70_border {d : Vec D} {k : Fin D} (hd : axis d = some k) {shape x : Vec D} (hx : Spec.Inside shape x) :
    border d k shape 1 x = true ↔ ¬ Spec.Inside shape (x + d) := by
  have hd' := (C70_axis d k).1 hd
  have h1 : (decide (∀ j, j ≠ k → 1 ≤ x j)) = true := by simp only [decide_eq_true_eq]; exact fun j _ => (hx j).1
  have h2 : (decide (∀ j, j ≠ k → x j < shape j - 1)) = true := by
    simp only [decide_eq_true_eq]; exact fun j _ => (hx j).2
  unfold border
  simp only [one_ne_zero, if_false, h1, h2, Bool.and_true, decide_eq_true_eq]
  have hk := hx k
  unfold Spec.Inside
  constructor
  · intro h hin
    have := hin k
    rcases hd' with rfl | rfl
    · simp at h this; omega
    · simp at h this; omega
  · intro h
    push Not at h
    obtain ⟨j, hj⟩ := h
    have hxj := hx j
    by_cases hjk : j = k
    · subst hjk
      rcases hd' with rfl | rfl
      · simp at hj ⊢; omega
      · simp at hj ⊢; omega
    · rcases hd' with rfl | rfl <;> simp [hjk] at hj <;> omega

example : Spec.Inside (![5, 4] : Vec 2) ![3, 1] ∧ border (![1, 0] : Vec 2) 0 ![5, 4] 1 ![3, 1] = true ∧
    border (![0, 1] : Vec 2) 1 ![5, 4] 1 ![3, 1] = false ∧ border (![0, -1] : Vec 2) 1 ![5, 4] 1 ![3, 1] = true := by
  decide

theorem dot_normal {d : Vec D} {k : Fin D} (hd : axis d = some k) (c : Vec D) : ∑ j, d j * c j = d k * c k := by
  rcases (C70_axis d k).1 hd with rfl | rfl <;> simp [Pi.single_apply]

/-- C70: `direction_indices_in_direction` yields, for the normal of a face, exactly the velocities with component one
along the normal, each once. -/
theorem C70_directions {d : Vec D} {k : Fin D} (hd : axis d = some k) (S : Stencil D) :
    (∀ i, i ∈ dirIndices S d ↔ ∑ j, d j * S.c i j = 1) ∧ (dirIndices S d).Nodup := by
  refine ⟨fun i => ?_, (List.nodup_finRange _).filter _⟩
  rw [dot_normal hd]
  simp only [dirIndices, List.mem_filter, List.mem_finRange, true_and, decide_eq_true_eq]
  constructor
  · rintro ⟨j, hj⟩
    by_cases hjk : j = k
    · subst hjk; rcases hj with ⟨h1, h2⟩ | ⟨h1, h2⟩ <;> rw [h1, h2] <;> rfl
    · rcases (C70_axis d k).1 hd with rfl | rfl <;> simp [hjk] at hj
  · intro h
    refine ⟨k, ?_⟩
    rcases (C70_axis d k).1 hd with rfl | rfl
    · left; simpa using h
    · right; simp at h ⊢; omega

example : (dirIndices exStencil ![0, 1]).map (fun i => exStencil.c i) = [![0, 1], ![-1, 1], ![1, 1]] := by
  decide +kernel

/-- C70: with velocities of at most one cell per time step every population that leaves the box passes through a face:
no link is missed if all faces are listed. -/
theorem C70_every_link_covered {shape x c : Vec D} (hx : Spec.Inside shape x) (hc : ∀ k, |c k| ≤ 1)
    (h : ¬ Spec.Inside shape (x + c)) : ∃ d, Spec.Normal d ∧ Spec.Crosses shape x c d := by
  unfold Spec.Inside at h
  push Not at h
  obtain ⟨k, hk⟩ := h
  have hxk := hx k
  have hck := abs_le.1 (hc k)
  simp only [Pi.add_apply] at hk
  rcases lt_or_ge (x k + c k) 1 with h1 | h1
  · refine ⟨Pi.single k (-1), ⟨k, .inr rfl⟩, ?_, ?_⟩
    · intro hin; have := hin k; simp at this; omega
    · rw [dot_normal ((C70_axis _ k).2 (.inr rfl))]; simp; omega
  · have := hk h1
    refine ⟨Pi.single k 1, ⟨k, .inl rfl⟩, ?_, ?_⟩
    · intro hin; have := hin k; simp at this; omega
    · rw [dot_normal ((C70_axis _ k).2 (.inl rfl))]; simp; omega

/-! ### The kernel -/

theorem mapM_forall₂ {α β : Type} (f : α → Option β) (P : α → β → Prop) :
    ∀ l : List α, (∀ a ∈ l, ∃ b, f a = some b ∧ P a b) → ∃ l', l.mapM f = some l' ∧ List.Forall₂ P l l'
  | [], _ => ⟨[], rfl, .nil⟩
  | a :: l, h => by
    obtain ⟨b, h1, h2⟩ := h a (by simp)
    obtain ⟨l', h3, h4⟩ := mapM_forall₂ f P l fun a ha => h a (List.mem_cons_of_mem _ ha)
    exact ⟨b :: l', by simp [List.mapM_cons, h1, h3], .cons h2 h4⟩

theorem forall₂_eq_map {α β : Type} {g : α → β} {l : List α} {l' : List β}
    (h : List.Forall₂ (fun a b => b = g a) l l') : l' = l.map g := by
  induction h with
  | nil => rfl
  | cons h _ ih => rw [h, ih, List.map_cons]

/-- What is known about the conditional generated for an entry of the boundary specification. -/
structure CondOk (S : Stencil D) (inv : Fin S.Q → Fin S.Q) (rd' : Fin S.Q → Access D S.Q)
    (e : Vec D × LocalRule S.Q V) (c : Cond D S.Q V) : Prop where
  d : c.d = e.1
  rule : c.rule = e.2
  axis : axis c.d = some c.k
  assigns : c.assigns = (dirIndices S c.d).map fun i => (rd' (inv i), i)

theorem updateRule_spec {S : Stencil D} {p : String} (hs : Supported S p) (hc : S.InvClosed) {ts : Timestep}
    (ht : TsOk p ts) {a rd wr rd'} (F : StepFacts S p ts a rd wr rd') {inv : Fin S.Q → Fin S.Q}
    (hidx : ∀ i, S.inverseIndex (S.c i) = some (inv i)) (spec : List (Vec D × LocalRule S.Q V))
    (hn : ∀ e ∈ spec, Spec.Normal e.1) :
    ∃ cs, updateRule S spec p ts = some ⟨rd, wr, cs⟩ ∧ List.Forall₂ (CondOk S inv rd') spec cs := by
  have hmk := make_spec hs hc ht F
  have key : ∀ e ∈ spec, ∃ c, conditional S p ts e = some c ∧ CondOk S inv rd' e c := by
    intro e he
    obtain ⟨k, hk⟩ := hn e he
    have hk := (C70_axis e.1 k).2 hk
    have has : assigns ⟨wr, rd'⟩ (dirIndices S e.1) =
        some ((dirIndices S e.1).map fun i => (rd' (inv i), i)) := by
      unfold assigns
      obtain ⟨l', h1, h2⟩ := mapM_forall₂ (fun i => do
        let j ← Indexing.inverseDirIndex S i
        return (rd' j, i)) (fun i b => b = (rd' (inv i), i)) (dirIndices S e.1) (fun i _ =>
          ⟨(rd' (inv i), i), by
            have : Indexing.inverseDirIndex S i = some (inv i) := hidx i
            simp [this], rfl⟩)
      rw [h1]
      congr 1
      exact forall₂_eq_map h2
    exact ⟨⟨e.1, k, (dirIndices S e.1).map fun i => (rd' (inv i), i), e.2⟩, by simp [conditional, hmk, has, hk], rfl, rfl, hk, rfl⟩
  obtain ⟨cs, h1, h2⟩ := mapM_forall₂ _ _ spec key
  exact ⟨cs, by simp [updateRule, F.acc, F.read, F.write, h1], h2⟩

section sem
variable {S : Stencil D} {p : String} {ts : Timestep} {a : Accessor D} {rd wr rd' : Fin S.Q → Access D S.Q}
  {inv : Fin S.Q → Fin S.Q} {spec : List (Vec D × LocalRule S.Q V)} {cs : List (Cond D S.Q V)} {shape : Vec D}

theorem at_inj {b : Fin S.Q → Access D S.Q} (hb : Function.Injective fun i => (b i).2) {x y : Vec D} {i j : Fin S.Q}
    (h : at' x (b i) = at' y (b j)) : x = y ∧ i = j := loc_inj _ hb h

theorem at_wr (F : StepFacts S p ts a rd wr rd') (x : Vec D) (i : Fin S.Q) :
    at' x (wr i) = at' (x + S.c i) (rd' i) := loc_wr _ F x i

theorem exec_wall (F : StepFacts S p ts a rd wr rd') (hinv : Function.Injective inv)
    {e : Vec D × LocalRule S.Q V} {c : Cond D S.Q V} (h : CondOk S inv rd' e c) {x : Vec D}
    (hx : Spec.Inside shape x) (post : Fin S.Q → V) (f : Vec D × Fin S.Q → V) (j : Fin S.Q) :
    c.exec shape x post f (at' x (rd' (inv j))) =
      if Spec.Crosses shape x (S.c j) e.1 then e.2 j post else f (at' x (rd' (inv j))) := by
  have hinj : Function.Injective fun i => at' x (rd' (inv i)) :=
    fun i i' he => hinv (at_inj F.rd'_inj he).2
  have hdir := C70_directions h.axis S
  unfold Cond.exec
  rw [h.assigns, List.foldl_map, ← h.rule, ← h.d]
  by_cases hb : border c.d c.k shape 1 x = true
  · rw [if_pos hb]
    have hout := (C70_border h.axis hx).1 hb
    by_cases hm : j ∈ dirIndices S c.d
    · rw [if_pos ⟨hout, (hdir.1 j).1 hm⟩]
      exact foldl_update_mem hinj (fun i => c.rule i post) _ _ _ hm
    · rw [if_neg (fun hcr => hm ((hdir.1 j).2 hcr.2))]
      exact foldl_update_not_mem _ _ _ _ _ fun i hi he => hm (by rw [hinj he]; exact hi)
  · rw [if_neg hb, if_neg (fun hcr => hb ((C70_border h.axis hx).2 hcr.1))]

theorem exec_other {e : Vec D × LocalRule S.Q V} {c : Cond D S.Q V} (h : CondOk S inv rd' e c) {x : Vec D}
    (hx : Spec.Inside shape x) (post : Fin S.Q → V) (f : Vec D × Fin S.Q → V) (q : Vec D × Fin S.Q)
    (hq : ∀ j, ¬ Spec.Inside shape (x + S.c j) → q ≠ at' x (rd' (inv j))) : c.exec shape x post f q = f q := by
  unfold Cond.exec
  split_ifs with hb
  · rw [h.assigns, List.foldl_map]
    refine foldl_update_not_mem _ _ _ _ _ fun i hi => hq i ?_
    have hout := (C70_border h.axis hx).1 hb
    have hd := ((C70_directions h.axis S).1 i).1 hi
    rw [dot_normal h.axis] at hd
    intro hin
    apply hout
    intro j
    have h1 := hin j
    have h2 := hx j
    by_cases hj : j = c.k
    · subst hj
      rcases (C70_axis _ _).1 h.axis with hd' | hd' <;> rw [hd'] at hd ⊢ <;> simp at hd h1 ⊢ <;> omega
    · rcases (C70_axis _ _).1 h.axis with hd' | hd' <;> rw [hd'] <;> simpa [hj] using h2
  · rfl

theorem conds_wall (F : StepFacts S p ts a rd wr rd') (hinv : Function.Injective inv)
    (h : List.Forall₂ (CondOk S inv rd') spec cs) {x : Vec D}
    (hx : Spec.Inside shape x) (post : Fin S.Q → V) (f : Vec D × Fin S.Q → V) (j : Fin S.Q) :
    cs.foldl (Cond.exec shape x post) f (at' x (rd' (inv j))) =
      ((Spec.wall spec shape x (S.c j)).map fun B => B j post).getD (f (at' x (rd' (inv j)))) := by
  induction h generalizing f with
  | nil => rfl
  | @cons e c es cs hc _ ih =>
    rw [List.foldl_cons, ih, exec_wall F hinv hc hx]
    unfold Spec.wall
    rw [List.filter_cons]
    by_cases hcr : Spec.Crosses shape x (S.c j) e.1
    · rw [if_pos hcr, if_pos (by simpa using hcr), List.getLast?_cons]
      cases ((es.filter fun e => decide (Spec.Crosses shape x (S.c j) e.1)).getLast?) <;> rfl
    · rw [if_neg hcr, if_neg (by simpa using hcr)]

theorem conds_other (h : List.Forall₂ (CondOk S inv rd') spec cs) {x : Vec D}
    (hx : Spec.Inside shape x) (post : Fin S.Q → V) (f : Vec D × Fin S.Q → V) (q : Vec D × Fin S.Q)
    (hq : ∀ j, ¬ Spec.Inside shape (x + S.c j) → q ≠ at' x (rd' (inv j))) :
    cs.foldl (Cond.exec shape x post) f q = f q := by
  induction h generalizing f with
  | nil => rfl
  | cons hc _ ih => rw [List.foldl_cons, ih, exec_other hc hx post f q hq]

theorem wall_loc (F : StepFacts S p ts a rd wr rd') (hcinv : ∀ i, S.c (inv i) = -S.c i) (x : Vec D) (j : Fin S.Q) :
    at' x (rd' (inv j)) = at' (x + S.c j) (wr (inv j)) := by
  rw [at_wr F, hcinv, add_neg_cancel_right]

variable (C : Vec D → (Fin S.Q → V) → Fin S.Q → V)

theorem cell_own (F : StepFacts S p ts a rd wr rd') (hcinv : ∀ i, S.c (inv i) = -S.c i)
    (h : List.Forall₂ (CondOk S inv rd') spec cs) {x : Vec D} (hx : Spec.Inside shape x)
    (f : Vec D × Fin S.Q → V) (i : Fin S.Q) :
    (⟨rd, wr, cs⟩ : Kernel D S.Q V).cell shape C x f (at' x (wr i)) = C x (fun j => f (at' x (rd j))) i := by
  unfold Kernel.cell
  simp only
  rw [conds_other h hx]
  · exact foldl_update_mem (fun i j he => (at_inj F.wr_inj he).2) _ _ _ _ (List.mem_finRange i)
  · intro j hout he
    rw [wall_loc F hcinv] at he
    have := (at_inj F.wr_inj he).1
    exact hout (this ▸ hx)

theorem cell_wall (F : StepFacts S p ts a rd wr rd') (hinv : Function.Injective inv)
    (hcinv : ∀ i, S.c (inv i) = -S.c i)
    (h : List.Forall₂ (CondOk S inv rd') spec cs) {x : Vec D} (hx : Spec.Inside shape x)
    (f : Vec D × Fin S.Q → V) (j : Fin S.Q) (hout : ¬ Spec.Inside shape (x + S.c j)) :
    (⟨rd, wr, cs⟩ : Kernel D S.Q V).cell shape C x f (at' x (rd' (inv j))) =
      ((Spec.wall spec shape x (S.c j)).map fun B => B j (C x fun j => f (at' x (rd j)))).getD
        (f (at' x (rd' (inv j)))) := by
  unfold Kernel.cell
  simp only
  rw [conds_wall F hinv h hx]
  congr 1
  refine foldl_update_not_mem _ _ _ _ _ fun i _ he => ?_
  rw [wall_loc F hcinv] at he
  have := (at_inj F.wr_inj he).1
  rw [this] at hout
  exact hout hx

theorem cell_other (h : List.Forall₂ (CondOk S inv rd') spec cs) {x : Vec D} (hx : Spec.Inside shape x)
    (f : Vec D × Fin S.Q → V) (q : Vec D × Fin S.Q) (h1 : ∀ i, q ≠ at' x (wr i))
    (h2 : ∀ j, ¬ Spec.Inside shape (x + S.c j) → q ≠ at' x (rd' (inv j))) :
    (⟨rd, wr, cs⟩ : Kernel D S.Q V).cell shape C x f q = f q := by
  unfold Kernel.cell
  simp only
  rw [conds_other h hx _ _ _ h2]
  exact foldl_update_not_mem _ _ _ _ _ fun i _ => h1 i

/-- A cell leaves the slots of other cells alone: those they read, those they write and those of their walls. -/
theorem cell_disjoint (F : StepFacts S p ts a rd wr rd') (hin : a.isInplace = true)
    (hcinv : ∀ i, S.c (inv i) = -S.c i) (hinv : Function.Injective inv)
    (h : List.Forall₂ (CondOk S inv rd') spec cs) {x y : Vec D}
    (hx : Spec.Inside shape x) (hy : Spec.Inside shape y) (hxy : x ≠ y) (f : Vec D × Fin S.Q → V) :
    (∀ i, (⟨rd, wr, cs⟩ : Kernel D S.Q V).cell shape C y f (at' x (wr i)) = f (at' x (wr i))) ∧
    (∀ i, (⟨rd, wr, cs⟩ : Kernel D S.Q V).cell shape C y f (at' x (rd i)) = f (at' x (rd i))) ∧
    (∀ j, ¬ Spec.Inside shape (x + S.c j) →
      (⟨rd, wr, cs⟩ : Kernel D S.Q V).cell shape C y f (at' x (rd' (inv j))) = f (at' x (rd' (inv j)))) := by
  have h1 : ∀ i, (⟨rd, wr, cs⟩ : Kernel D S.Q V).cell shape C y f (at' x (wr i)) = f (at' x (wr i)) := by
    intro i
    refine cell_other C h hy f _ (fun j he => hxy (at_inj F.wr_inj he).1) fun j hout he => ?_
    rw [wall_loc F hcinv] at he
    have := (at_inj F.wr_inj he).1
    exact hout (this ▸ hx)
  refine ⟨h1, fun i => ?_, fun j hout => ?_⟩
  · obtain ⟨σ, hσ, hwr, -⟩ := F.inplace hin
    obtain ⟨i', rfl⟩ := hσ.2 i
    rw [← hwr]; exact h1 i'
  · refine cell_other C h hy f _ (fun i he => ?_) fun j' _ he => ?_
    · rw [wall_loc F hcinv] at he
      have := (at_inj F.wr_inj he).1
      exact hout (this ▸ hy)
    · exact hxy (at_inj F.rd'_inj he).1

theorem sweep_sem (F : StepFacts S p ts a rd wr rd') (hin : a.isInplace = true)
    (hcinv : ∀ i, S.c (inv i) = -S.c i) (hinv : Function.Injective inv)
    (h : List.Forall₂ (CondOk S inv rd') spec cs) {cells : List (Vec D)} (hn : cells.Nodup)
    (hc : ∀ x ∈ cells, Spec.Inside shape x) (f : Vec D × Fin S.Q → V) :
    (∀ x ∈ cells, ∀ i, (⟨rd, wr, cs⟩ : Kernel D S.Q V).sweep shape C cells f (at' x (wr i)) =
      C x (fun j => f (at' x (rd j))) i) ∧
    (∀ x ∈ cells, ∀ j, ¬ Spec.Inside shape (x + S.c j) →
      (⟨rd, wr, cs⟩ : Kernel D S.Q V).sweep shape C cells f (at' x (rd' (inv j))) =
      ((Spec.wall spec shape x (S.c j)).map fun B => B j (C x fun j => f (at' x (rd j)))).getD
        (f (at' x (rd' (inv j))))) ∧
    (∀ q, (∀ x ∈ cells, ∀ i, q ≠ at' x (wr i)) →
      (∀ x ∈ cells, ∀ j, ¬ Spec.Inside shape (x + S.c j) → q ≠ at' x (rd' (inv j))) →
      (⟨rd, wr, cs⟩ : Kernel D S.Q V).sweep shape C cells f q = f q) ∧
    (∀ x, x ∉ cells → Spec.Inside shape x →
      (∀ i, (⟨rd, wr, cs⟩ : Kernel D S.Q V).sweep shape C cells f (at' x (wr i)) = f (at' x (wr i))) ∧
      (∀ j, ¬ Spec.Inside shape (x + S.c j) →
      (⟨rd, wr, cs⟩ : Kernel D S.Q V).sweep shape C cells f (at' x (rd' (inv j))) = f (at' x (rd' (inv j))))) := by
  induction cells generalizing f with
  | nil => exact ⟨by simp, by simp, fun _ _ _ => rfl, fun _ _ _ => ⟨fun _ => rfl, fun _ _ => rfl⟩⟩
  | cons y cells ih =>
    have hn' := List.nodup_cons.1 hn
    have hy := hc y (by simp)
    obtain ⟨i1, i2, i3, i4⟩ := ih hn'.2 (fun x hx => hc x (List.mem_cons_of_mem _ hx))
      ((⟨rd, wr, cs⟩ : Kernel D S.Q V).cell shape C y f)
    have hsw : (⟨rd, wr, cs⟩ : Kernel D S.Q V).sweep shape C (y :: cells) f =
        (⟨rd, wr, cs⟩ : Kernel D S.Q V).sweep shape C cells ((⟨rd, wr, cs⟩ : Kernel D S.Q V).cell shape C y f) := rfl
    rw [hsw]
    refine ⟨fun x hx i => ?_, fun x hx j hj => ?_, fun q h1 h2 => ?_, fun x hx hxin => ?_⟩
    · by_cases hxy : x = y
      · subst hxy
        rw [(i4 x hn'.1 hy).1, cell_own C F hcinv h hy]
      · have hxc : x ∈ cells := by simpa [hxy] using hx
        obtain ⟨_, d2, _⟩ := cell_disjoint C F hin hcinv hinv h (hc x hx) hy hxy f
        rw [i1 x hxc i]
        simp only [d2]
    · by_cases hxy : x = y
      · subst hxy
        rw [(i4 x hn'.1 hy).2 j hj, cell_wall C F hinv hcinv h hy f j hj]
      · have hxc : x ∈ cells := by simpa [hxy] using hx
        obtain ⟨_, d2, d3⟩ := cell_disjoint C F hin hcinv hinv h (hc x hx) hy hxy f
        rw [i2 x hxc j hj, d3 j hj]
        simp only [d2]
    · rw [i3 q (fun x hx => h1 x (List.mem_cons_of_mem _ hx)) (fun x hx => h2 x (List.mem_cons_of_mem _ hx))]
      exact cell_other C h hy f q (h1 y (by simp)) (h2 y (by simp))
    · have hxy : x ≠ y := fun e => hx (by simp [e])
      have hxc : x ∉ cells := fun e => hx (List.mem_cons_of_mem _ e)
      obtain ⟨d1, _, d3⟩ := cell_disjoint C F hin hcinv hinv h hxin hy hxy f
      exact ⟨fun i => by rw [(i4 x hxc hxin).1, d1], fun j hj => by rw [(i4 x hxc hxin).2 j hj, d3 j hj]⟩

end sem

/-! ### C70 -/

/-- C70, one step: for every in-place streaming pattern and any list of faces with boundary conditions, after the
kernel of step `t` ran over the cells of the box (in any order) the next kernel reads in cell `x` for direction `i`:
the post-collision population of the neighbour `x - c_i` if that is in the box, otherwise the value of the boundary
condition of the face passed by the opposite direction, computed from the post-collision populations of `x`; slots of
faces without boundary condition are left as they were. -/
theorem C70_step {S : Stencil D} {p : String} (hs : Supported S p) (hp : isInplace p = some true) (hc : S.InvClosed)
    {spec : List (Vec D × LocalRule S.Q V)} (hn : ∀ e ∈ spec, Spec.Normal e.1) {shape : Vec D}
    {cells : List (Vec D)} (hnd : cells.Nodup) (hcells : ∀ x, x ∈ cells ↔ Spec.Inside shape x) (t : ℕ)
    (C : Vec D → (Fin S.Q → V) → Fin S.Q → V) (f : Vec D × Fin S.Q → V) :
    ∃ ts K r g r', stepTimestep p t = some ts ∧ updateRule S spec p ts = some K ∧
      readPops (AddMonoidHom.id _) S p t f = some r ∧ readPops (AddMonoidHom.id _) S p (t + 1) f = some g ∧
      readPops (AddMonoidHom.id _) S p (t + 1) (K.sweep shape C cells f) = some r' ∧
      (∀ x i, Spec.Inside shape (x - S.c i) → r' x i = C (x - S.c i) (r (x - S.c i)) i) ∧
      (∀ x i j, Spec.Inside shape x → ¬ Spec.Inside shape (x - S.c i) → S.c j = -S.c i →
        r' x i = ((Spec.wall spec shape x (S.c j)).map fun B => B j (C x (r x))).getD (g x i)) := by
  obtain ⟨ts, h1, h2, h3⟩ := stepTimestep_spec hs.1 t
  obtain ⟨a, rd, wr, rd', F⟩ := stepFacts hs h2
  obtain ⟨a', ha', hrd'⟩ := F.next
  obtain ⟨inv, hidx, hcinv, hinv2, hinj⟩ := exists_inv hs.2.1 hc
  have hin : a.isInplace = true := by have := F.flag; rw [hp] at this; exact (Option.some.inj this).symm
  obtain ⟨cs, hK, hcs⟩ := updateRule_spec hs hc h2 F hidx spec hn
  obtain ⟨s1, s2, -, -⟩ := sweep_sem C F hin hcinv hinj hcs hnd (fun x hx => (hcells x).1 hx) f (shape := shape)
  refine ⟨ts, _, fun x i => f (at' x (rd i)), fun x i => f (at' x (rd' i)),
    fun x i => (⟨rd, wr, cs⟩ : Kernel D S.Q V).sweep shape C cells f (at' x (rd' i)), h1, hK,
    by simp [readPops, h1, F.acc, F.read, at'], by simp [readPops, h3, ha', hrd', at'],
    by simp [readPops, h3, ha', hrd', at'], ?_, ?_⟩
  · intro x i hx
    have := s1 _ ((hcells _).2 hx) i
    rw [at_wr F, sub_add_cancel] at this
    exact this
  · intro x i j hx hout hj
    have hij : inv j = i := hs.2.1 (by rw [hcinv, hj, neg_neg])
    have := s2 x ((hcells x).2 hx) j (by rwa [hj, ← sub_eq_add_neg])
    rw [hij] at this
    exact this

/-- The boundary specification lists every face of the box. -/
def AllFaces {Q : ℕ} (spec : List (Vec D × LocalRule Q V)) : Prop :=
  (∀ e ∈ spec, Spec.Normal e.1) ∧ ∀ d : Vec D, Spec.Normal d → ∃ e ∈ spec, e.1 = d

theorem wall_isSome {Q : ℕ} {spec : List (Vec D × LocalRule Q V)} (hf : AllFaces spec) {shape x c : Vec D}
    (hx : Spec.Inside shape x) (hc : ∀ k, |c k| ≤ 1) (h : ¬ Spec.Inside shape (x + c)) :
    ∃ B, Spec.wall spec shape x c = some B := by
  obtain ⟨d, hd, hcr⟩ := C70_every_link_covered hx hc h
  obtain ⟨e, he, rfl⟩ := hf.2 d hd
  have hm : e ∈ spec.filter fun e => Spec.Crosses shape x c e.1 := List.mem_filter.2 ⟨he, by simpa using hcr⟩
  obtain ⟨e', he'⟩ : ∃ e', (spec.filter fun e => decide (Spec.Crosses shape x c e.1)).getLast? = some e' := by
    cases hl : (spec.filter fun e => decide (Spec.Crosses shape x c e.1)).getLast? with
    | none => rw [List.getLast?_eq_none_iff] at hl; rw [hl] at hm; cases hm
    | some e' => exact ⟨e', rfl⟩
  exact ⟨e'.2, by rw [Spec.wall, he']; rfl⟩

/-- C70: with a boundary condition for every face, velocities of at most one cell per step and any in-place pattern,
`n` steps of the generated kernels are `n` steps of the specified scheme, in every cell of the box. -/
theorem C70_run {S : Stencil D} {p : String} (hs : Supported S p) (hp : isInplace p = some true)
    {inv : Fin S.Q → Fin S.Q} (hinv : ∀ i, S.c (inv i) = -S.c i) (hS : ∀ i k, |S.c i k| ≤ 1)
    {spec : List (Vec D × LocalRule S.Q V)} (hf : AllFaces spec) {shape : Vec D}
    {cells : List (Vec D)} (hnd : cells.Nodup) (hcells : ∀ x, x ∈ cells ↔ Spec.Inside shape x)
    (wall : Vec D → Fin S.Q → (Fin S.Q → V) → V)
    (hwall : ∀ x j B, Spec.wall spec shape x (S.c j) = some B → wall x j = B j)
    (C : ℕ → Vec D → (Fin S.Q → V) → Fin S.Q → V) (f : Vec D × Fin S.Q → V) (n : ℕ) :
    ∃ f' r₀ r, run S spec p shape C cells n f = some f' ∧ readPops (AddMonoidHom.id _) S p 0 f = some r₀ ∧
      readPops (AddMonoidHom.id _) S p n f' = some r ∧
      ∀ x, Spec.Inside shape x → ∀ i, r x i = Spec.boxRun S.c inv shape wall C r₀ n x i := by
  have hc : S.InvClosed := fun i => ⟨inv i, hinv i⟩
  induction n with
  | zero =>
    obtain ⟨_, _, _, _, _, _, _, hr, _, _⟩ := runFacts (G := Vec D) (V := V) hs 0
    exact ⟨f, _, _, rfl, hr _ _, hr _ _, fun x _ i => rfl⟩
  | succ n ih =>
    obtain ⟨f', r₀, r, h1, h2, h3, h4⟩ := ih
    obtain ⟨ts, K, r1, g, r', g1, g2, g3, g4, g5, g6, g7⟩ := C70_step hs hp hc hf.1 hnd hcells n (C n) f'
    rw [h3] at g3; cases g3
    refine ⟨_, r₀, r', by simp [run, h1, g1, g2], h2, g5, fun x hx i => ?_⟩
    simp only [Spec.boxRun, Spec.boxStep]
    have hrow : ∀ y, Spec.Inside shape y → r y = Spec.boxRun S.c inv shape wall C r₀ n y :=
      fun y hy => funext (h4 y hy)
    split_ifs with hin
    · rw [g6 x i hin, hrow _ hin]
    · have hout : ¬ Spec.Inside shape (x + S.c (inv i)) := by rwa [hinv, ← sub_eq_add_neg]
      obtain ⟨B, hB⟩ := wall_isSome hf hx (hS (inv i)) hout
      rw [g7 x i (inv i) hx hin (hinv i), hB, hwall x _ B hB, hrow x hx]
      rfl

/-- C70: the order in which the cells of the box are processed does not matter. -/
theorem C70_order_irrelevant {S : Stencil D} {p : String} (hs : Supported S p) (hp : isInplace p = some true)
    (hc : S.InvClosed) {spec : List (Vec D × LocalRule S.Q V)} (hn : ∀ e ∈ spec, Spec.Normal e.1) {shape : Vec D}
    {cells cells' : List (Vec D)} (hperm : cells.Perm cells') (hnd : cells.Nodup)
    (hcells : ∀ x ∈ cells, Spec.Inside shape x) {ts : Timestep} (ht : TsOk p ts)
    (C : Vec D → (Fin S.Q → V) → Fin S.Q → V) (f : Vec D × Fin S.Q → V) :
    ∃ K, updateRule S spec p ts = some K ∧ K.sweep shape C cells f = K.sweep shape C cells' f := by
  obtain ⟨a, rd, wr, rd', F⟩ := stepFacts hs ht
  obtain ⟨inv, hidx, hcinv, hinv2, hinj⟩ := exists_inv hs.2.1 hc
  have hin : a.isInplace = true := by have := F.flag; rw [hp] at this; exact (Option.some.inj this).symm
  obtain ⟨cs, hK, hcs⟩ := updateRule_spec hs hc ht F hidx spec hn
  refine ⟨_, hK, ?_⟩
  obtain ⟨s1, s2, s3, -⟩ := sweep_sem C F hin hcinv hinj hcs hnd hcells f (shape := shape)
  obtain ⟨s1', s2', s3', -⟩ := sweep_sem C F hin hcinv hinj hcs (hperm.nodup_iff.1 hnd)
    (fun x hx => hcells x (hperm.mem_iff.2 hx)) f (shape := shape)
  funext q
  by_cases h1 : ∃ x ∈ cells, ∃ i, q = at' x (wr i)
  · obtain ⟨x, hx, i, rfl⟩ := h1
    rw [s1 x hx, s1' x (hperm.mem_iff.1 hx)]
  · by_cases h2 : ∃ x ∈ cells, ∃ j, ¬ Spec.Inside shape (x + S.c j) ∧ q = at' x (rd' (inv j))
    · obtain ⟨x, hx, j, hj, rfl⟩ := h2
      rw [s2 x hx j hj, s2' x (hperm.mem_iff.1 hx) j hj]
    · push Not at h1 h2
      rw [s3 q h1 h2, s3' q (fun x hx => h1 x (hperm.mem_iff.2 hx)) (fun x hx => h2 x (hperm.mem_iff.2 hx))]

/-- The same boundary conditions as a rule for the separate boundary kernel: the entry of the face passed. -/
def sweepRule {Q : ℕ} (spec : List (Vec D × LocalRule Q V)) (shape : Vec D) (c : Fin Q → Vec D) : Rule (Vec D) Q V :=
  fun x j fout _ => match Spec.wall spec shape x (c j) with
    | some B => B j (fout x)
    | none => fout x j

/-- C70: the kernels with built-in boundaries compute, step for step, what the ordinary kernels of any streaming
pattern `q` followed by the boundary kernel over all links of the box compute. -/
theorem C70_equals_boundary_sweep {S : Stencil D} {p q : String} (hs : Supported S p) (hp : isInplace p = some true)
    (hq : Supported S q) (hc : S.InvClosed) (hS : ∀ i k, |S.c i k| ≤ 1)
    {spec : List (Vec D × LocalRule S.Q V)} (hf : AllFaces spec) {shape : Vec D}
    {cells : List (Vec D)} (hnd : cells.Nodup) (hcells : ∀ x, x ∈ cells ↔ Spec.Inside shape x)
    {links : List (Vec D × Fin S.Q)}
    (hlinks : ∀ x j, (x, j) ∈ links ↔ Spec.Inside shape x ∧ ¬ Spec.Inside shape (x + S.c j))
    (C : ℕ → Vec D → (Fin S.Q → V) → Fin S.Q → V) (f : Vec D × Fin S.Q → V)
    (s : (Vec D × Fin S.Q → V) × (Vec D × Fin S.Q → V))
    (h0 : ∀ a b, readPops (AddMonoidHom.id _) S p 0 f = some a → readPops (AddMonoidHom.id _) S q 0 s.1 = some b →
      ∀ x, Spec.Inside shape x → a x = b x) (n : ℕ) :
    ∃ f' s' r r', run S spec p shape C cells n f = some f' ∧
      Lbm.run (AddMonoidHom.id _) S q C (boundaryHook (AddMonoidHom.id _) S q (sweepRule spec shape S.c) links) cells n s
        = some s' ∧
      readPops (AddMonoidHom.id _) S p n f' = some r ∧ readPops (AddMonoidHom.id _) S q n s'.1 = some r' ∧
      ∀ x, Spec.Inside shape x → r x = r' x := by
  induction n with
  | zero =>
    obtain ⟨_, _, _, _, _, _, _, hr, _, _⟩ := runFacts (G := Vec D) (V := V) hs 0
    obtain ⟨_, _, _, _, _, _, _, hr', _, _⟩ := runFacts (G := Vec D) (V := V) hq 0
    exact ⟨f, s, _, _, rfl, rfl, hr _ _, hr' _ _, h0 _ _ (hr _ _) (hr' _ _)⟩
  | succ n ih =>
    obtain ⟨f', s', r, r', h1, h2, h3, h4, h5⟩ := ih
    obtain ⟨ts, K, r1, g, r2, g1, g2, g3, g4, g5, g6, g7⟩ := C70_step hs hp hc hf.1 hnd hcells n (C n) f'
    rw [h3] at g3; cases g3
    obtain ⟨ts', a, rd, wr, rd', k1, F, kr, kw, kr'⟩ := runFacts (G := Vec D) (V := V) hq n
    obtain ⟨s'', m1, m2, -⟩ := kernelStep_sem (AddMonoidHom.id (Vec D)) F (C n) hnd s'
    rw [kr] at h4; cases h4
    obtain ⟨f'', w, r3, r4, b1, b2, b3, b4, b5, b6⟩ := boundaryHook_sem (AddMonoidHom.id (Vec D)) hq hc n
      (sweepRule spec shape S.c) {x | Spec.Inside shape x} links (fun l hl => (hlinks l.1 l.2).1 hl) (by
        intro l hl g1 g2 k1 k2 hg hk
        have hrow : g1 l.1 = g2 l.1 := funext fun i => hg l.1 ((hlinks l.1 l.2).1 hl).1 i
        simp only [sweepRule, hrow]) s''.1
    rw [kw] at b2; cases b2
    rw [kr'] at b3; cases b3
    refine ⟨_, _, r2, r4, by simp [run, h1, g1, g2], by simp [Lbm.run, h2, k1, F.acc, m1, b1]; rfl, g5, b4, ?_⟩
    intro x hx
    funext i
    obtain ⟨j, hj⟩ := hc i
    by_cases hin : Spec.Inside shape (x - S.c i)
    · rw [g6 x i hin, b6 x i, h5 _ hin]
      · have := m2 _ ((hcells _).2 hin) i
        rw [loc_wr _ F, AddMonoidHom.id_apply, sub_add_cancel] at this
        exact this.symm
      · intro j' hj' hm
        apply ((hlinks _ _).1 hm).2
        have : S.c j' = -S.c i := by rw [hj', neg_neg]
        rwa [this, ← sub_eq_add_neg]
    · have hout : ¬ Spec.Inside shape (x + S.c j) := by rwa [hj, ← sub_eq_add_neg]
      obtain ⟨B, hB⟩ := wall_isSome hf hx (hS j) hout
      rw [g7 x i j hx hin hj, b5 x j i ((hlinks x j).2 ⟨hx, hout⟩) (by rw [hj, neg_neg])]
      simp only [sweepRule, hB, Option.map_some, Option.getD_some]
      rw [h5 x hx]
      congr 1
      funext k
      exact (m2 x ((hcells x).2 hx) k).symm

/-- The no-slip condition inside the kernel: `f_in(inv_dir[dir]) = f_out(dir)` (`boundaryconditions.py:128-139`). -/
def noSlip {Q : ℕ} : LocalRule Q V := fun j post => post j

/-- C70: a box with no-slip conditions on all faces is closed: if the collision conserves mass, the mass in the box
stays the same for ever. -/
theorem C70_mass_conserved {V : Type} [AddCommMonoid V] {S : Stencil D} {p : String} (hs : Supported S p)
    (hp : isInplace p = some true) (hc : S.InvClosed) (hS : ∀ i k, |S.c i k| ≤ 1)
    {spec : List (Vec D × LocalRule S.Q V)} (hf : AllFaces spec) (hno : ∀ e ∈ spec, e.2 = noSlip) {shape : Vec D}
    {cells : List (Vec D)} (hnd : cells.Nodup) (hcells : ∀ x, x ∈ cells ↔ Spec.Inside shape x)
    (C : ℕ → Vec D → (Fin S.Q → V) → Fin S.Q → V) (hC : ∀ t x f, ∑ i, C t x f i = ∑ i, f i)
    (f : Vec D × Fin S.Q → V) (n : ℕ) :
    ∃ f' r₀ r, run S spec p shape C cells n f = some f' ∧ readPops (AddMonoidHom.id _) S p 0 f = some r₀ ∧
      readPops (AddMonoidHom.id _) S p n f' = some r ∧
      ∑ x ∈ cells.toFinset, ∑ i, r x i = ∑ x ∈ cells.toFinset, ∑ i, r₀ x i := by
  obtain ⟨inv, hidx, hcinv, hinv2, hinj⟩ := exists_inv hs.2.1 hc
  have hwall : ∀ x j B, Spec.wall spec shape x (S.c j) = some B →
      (fun (_ : Vec D) (j : Fin S.Q) (post : Fin S.Q → V) => post j) x j = B j := by
    intro x j B hB
    unfold Spec.wall at hB
    obtain ⟨e, he, rfl⟩ := Option.map_eq_some_iff.1 hB
    have := List.mem_of_getLast? he
    rw [hno e (List.mem_filter.1 this).1]
    rfl
  obtain ⟨f', r₀, r, h1, h2, h3, h4⟩ := C70_run hs hp hcinv hS hf hnd hcells _ hwall C f n
  refine ⟨f', r₀, r, h1, h2, h3, ?_⟩
  have hsum : ∀ g : Vec D → Fin S.Q → V, (∀ x, Spec.Inside shape x → ∀ i, r x i = g x i) →
      ∑ x ∈ cells.toFinset, ∑ i, r x i = ∑ x ∈ cells.toFinset, ∑ i, g x i := by
    intro g hg
    refine Finset.sum_congr rfl fun x hx => Finset.sum_congr rfl fun i _ => hg x ?_ i
    exact (hcells x).1 (by simpa using hx)
  rw [hsum _ h4]
  clear hsum h1 h3 h4
  induction n with
  | zero => rfl
  | succ n ih =>
    rw [← ih]
    set g := Spec.boxRun S.c inv shape (fun _ j post => post j) C r₀ n with hg
    rw [closed_sum (AddMonoidHom.id (Vec D)) hs.2.1 hcinv cells.toFinset
      (Spec.boxRun S.c inv shape (fun _ j post => post j) C r₀ (n + 1)) (fun x => C n x (g x)) (fun _ v => v)]
    · exact Finset.sum_congr rfl fun x _ => hC n x _
    · intro x i hx
      have hx' : Spec.Inside shape (x - S.c i) := (hcells _).1 (by simpa using hx)
      simp only [Spec.boxRun, Spec.boxStep, if_pos hx']
      rfl
    · intro x _ i hx
      have hx' : ¬ Spec.Inside shape (x - S.c i) := fun h => hx (by simpa using (hcells _).2 h)
      simp only [Spec.boxRun, Spec.boxStep, if_neg hx']
      rfl

/-! ### The hypotheses can be met -/

/-- All no-slip faces of a two-dimensional box and a moving lid that adds `u`. -/
def exSpec (u : ℤ) : List (Vec 2 × LocalRule exStencil.Q ℤ) :=
  [(![-1, 0], noSlip), (![1, 0], noSlip), (![0, -1], noSlip), (![0, 1], fun j post => post j - u * exStencil.c j 0)]

theorem lid_normal : (![0, 1] : Vec 2) = Pi.single 1 1 := by decide

theorem exSpec_faces (u : ℤ) : AllFaces (exSpec u) := by
  constructor
  · intro e he
    simp only [exSpec, List.mem_cons, List.not_mem_nil, or_false] at he
    rcases he with rfl | rfl | rfl | rfl
    · exact ⟨0, .inr (by decide)⟩
    · exact ⟨0, .inl (by decide)⟩
    · exact ⟨1, .inr (by decide)⟩
    · exact ⟨1, .inl lid_normal⟩
  · rintro d ⟨k, rfl | rfl⟩
    · fin_cases k
      · exact ⟨(![1, 0], noSlip), by simp [exSpec], by decide⟩
      · exact ⟨(![0, 1], fun j post => post j - u * exStencil.c j 0), by simp [exSpec], lid_normal⟩
    · fin_cases k
      · exact ⟨(![-1, 0], noSlip), by simp [exSpec], by decide⟩
      · exact ⟨(![0, -1], noSlip), by simp [exSpec], by decide⟩

/-- The cells of a box of 2 × 1 cells with its ghost layer. -/
def exShape : Vec 2 := ![4, 3]
def exCells : List (Vec 2) := [![1, 1], ![2, 1]]

theorem exCells_inside : ∀ x, x ∈ exCells ↔ Spec.Inside exShape x := by
  intro x
  constructor
  · intro hx
    simp only [exCells, List.mem_cons, List.not_mem_nil, or_false] at hx
    rcases hx with rfl | rfl <;> decide
  · intro h
    have h0 := h 0
    have h1 := h 1
    simp [exShape] at h0 h1
    simp only [exCells, List.mem_cons, List.not_mem_nil, or_false]
    have e1 : x 1 = 1 := by omega
    rcases (by omega : x 0 = 1 ∨ x 0 = 2) with e0 | e0
    · left; funext k; fin_cases k <;> simpa
    · right; funext k; fin_cases k <;> simpa

example (C : ℕ → Vec 2 → (Fin exStencil.Q → ℤ) → Fin exStencil.Q → ℤ) (f : Vec 2 × Fin exStencil.Q → ℤ) (n : ℕ) :
    ∃ f', run exStencil (exSpec 5) "esotwist" exShape C exCells n f = some f' := by
  obtain ⟨f', _, _, h, _⟩ := C70_run (S := exStencil) (p := "esotwist")
    (by decide +kernel) (by decide) (inv := fun i => ((exStencil.index (-exStencil.c i)).getD ⟨0, by decide⟩))
    (by decide +kernel) (by decide +kernel) (exSpec_faces 5) (by decide) exCells_inside
    (fun x j post => ((Spec.wall (exSpec 5) exShape x (exStencil.c j)).map fun B => B j post).getD 0)
    (fun x j B h => by rw [h]; rfl) C f n
  exact ⟨f', h⟩

/-- The corner population of the upper right cell: passes two faces, the condition listed last is used. -/
example : (Spec.wall (exSpec 5) exShape ![2, 1] ![1, 1]).map (fun B => B ⟨8, by decide⟩ fun j => (j.val : ℤ)) = some 3 ∧
    (Spec.wall (exSpec 5).reverse exShape ![2, 1] ![1, 1]).map (fun B => B ⟨8, by decide⟩ fun j => (j.val : ℤ)) = some 8 := by
  decide +kernel

/-! ### Where the code goes wrong -/

/-- A field with a different value in every slot, and a collision that changes nothing. -/
def raceField : Vec 2 × Fin exStencil.Q → ℤ := fun q => 100 * q.1 0 + 10 * q.1 1 + q.2.val

/-- A row of three cells. -/
def raceShape : Vec 2 := ![5, 3]
def raceCells : List (Vec 2) := [![1, 1], ![2, 1], ![3, 1]]

/-- The sweep with updates written as case distinctions, for evaluation. -/
def upd {A : Type} [DecidableEq A] (f : A → V) (a : A) (v : V) : A → V := fun b => if b = a then v else f b

theorem update_eq_upd {A : Type} [DecidableEq A] (f : A → V) (a : A) (v : V) : Function.update f a v = upd f a v := by
  funext b; rw [Function.update_apply]; rfl

def Kernel.evalSweep {Q : ℕ} (K : Kernel D Q V) (shape : Vec D) (C : Vec D → (Fin Q → V) → Fin Q → V)
    (cells : List (Vec D)) (f : Vec D × Fin Q → V) : Vec D × Fin Q → V :=
  cells.foldl (fun f x =>
    let post := C x fun i => f (at' x (K.rd i))
    K.conds.foldl (fun f c => if border c.d c.k shape 1 x then
        c.assigns.foldl (fun f a => upd f (at' x a.1) (c.rule a.2 post)) f
      else f) ((List.finRange Q).foldl (fun f i => upd f (at' x (K.wr i)) (post i)) f)) f

theorem sweep_eq_eval {Q : ℕ} (K : Kernel D Q V) : K.sweep = K.evalSweep := by
  funext shape C cells f
  unfold Kernel.sweep Kernel.evalSweep Kernel.cell Cond.exec
  simp only [update_eq_upd]

/-- C70, false of the defaults: with `streaming_pattern='pull'`, `timestep=Timestep.BOTH` (the default arguments,
`boundaries_in_kernel.py:87-88`) the kernel is generated without complaint, but it reads from and writes to the same
array: the result depends on the order of the cells and a population arrives in the wrong cell. The same for `'push'`. -/
theorem C70_two_array_patterns_race : ∀ p ∈ ["pull", "push"], ∃ K : Kernel 2 exStencil.Q ℤ,
    updateRule exStencil (exSpec 0) p .both = some K ∧
      (∃ q, K.sweep raceShape (fun _ g => g) [![1, 1], ![2, 1], ![3, 1]] raceField q ≠
        K.sweep raceShape (fun _ g => g) [![3, 1], ![2, 1], ![1, 1]] raceField q) ∧
      ∃ r r' x i, readPops (AddMonoidHom.id _) exStencil p 0 raceField = some r ∧
        readPops (AddMonoidHom.id _) exStencil p 1 (K.sweep raceShape (fun _ g => g) raceCells raceField) = some r' ∧
        Spec.Inside raceShape x ∧ Spec.Inside raceShape (x - exStencil.c i) ∧
        r' x i ≠ r (x - exStencil.c i) i := by
  simp only [sweep_eq_eval]
  have key : ∀ p ∈ ["pull", "push"], ((updateRule exStencil (exSpec 0) p .both).bind fun K =>
      (readPops (AddMonoidHom.id _) exStencil p 0 raceField).bind fun r =>
      (readPops (AddMonoidHom.id _) exStencil p 1 (K.evalSweep raceShape (fun _ g => g) raceCells raceField)).bind fun r' =>
      some (decide ((∃ q ∈ ([![1, 1], ![2, 1], ![3, 1], ![4, 1]] : List (Vec 2)), ∃ i,
        K.evalSweep raceShape (fun _ g => g) [![1, 1], ![2, 1], ![3, 1]] raceField (q, i) ≠
        K.evalSweep raceShape (fun _ g => g) [![3, 1], ![2, 1], ![1, 1]] raceField (q, i)) ∧
        ∃ x ∈ raceCells, ∃ i, Spec.Inside raceShape x ∧ Spec.Inside raceShape (x - exStencil.c i) ∧
          r' x i ≠ r (x - exStencil.c i) i))) = some true := by decide +kernel
  intro p hp
  obtain ⟨K, h1, h2⟩ := Option.bind_eq_some_iff.1 (key p hp)
  obtain ⟨r, h3, h4⟩ := Option.bind_eq_some_iff.1 h2
  obtain ⟨r', h5, h6⟩ := Option.bind_eq_some_iff.1 h4
  obtain ⟨⟨q, _, i, hq⟩, x, _, j, hj⟩ := of_decide_eq_true (Option.some.inj h6)
  exact ⟨K, h1, ⟨(q, i), hq⟩, r, r', x, j, h3, h5, hj⟩

/-- C70, false for velocities longer than one cell: some velocity of the predefined stencil `D2V17` leaves the box from
its last column and is selected for no face of the box. -/
theorem C70_long_velocities_missed :
    ∃ S : Stencil 2, predefinedStencil Tables.D2V17_walberla = some ⟨2, S⟩ ∧ S.InvClosed ∧
      ∃ i, Spec.Inside (![9, 9] : Vec 2) ![7, 4] ∧ ¬ Spec.Inside (![9, 9] : Vec 2) (![7, 4] + S.c i) ∧
        ∀ d ∈ ([![1, 0], ![-1, 0], ![0, 1], ![0, -1]] : List (Vec 2)), i ∉ dirIndices S d := by
  refine ⟨Stencil.ofInts 2 Tables.D2V17_walberla, rfl, by decide +kernel, ?_⟩
  decide +kernel

end Lbm.InKernel
