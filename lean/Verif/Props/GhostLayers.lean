import Verif.GhostLayers
import Mathlib.Tactic.Ring
import Mathlib.Tactic.Linarith
import Mathlib.Data.Int.ModEq
import Mathlib.Algebra.Group.Pi.Basic

/-!
# Property C90: time steps on arrays with ghost layers are time steps on the periodic domain

Whatever the kernels compute, whatever the ghost layers contain at the beginning and in whatever order the cells are treated: the time
steps of the phase field models give in the domain what kernels on a periodic grid would give, and never access memory outside of
the arrays.
-/

namespace Lbm
namespace GhostLayers

variable {A V : Type} [DecidableEq A] {D : ℕ} {size : Fin D → ℕ}

/-! ## Specification -/

namespace Spec

/-- A cell of the periodic grid -/
abbrev Torus (size : Fin D → ℕ) : Type := (i : Fin D) → ZMod (size i)

/-- The position on the periodic grid -/
def toTorus (size : Fin D → ℕ) (y : Vec D) : Torus size := fun i => (y i : ZMod (size i))

/-- One part of a time step on the periodic grid: all cells at once, nothing to synchronise -/
def op (T : A → Torus size → V) : Op A V D → A → Torus size → V
  | .sync _ => T
  | .kernel k => fun a x => if a ∈ k.writes then k.fn (fun b o => T b (x + toTorus size o)) a else T a x
  | .swap a b => swapArrays a b T

/-- A time step on the periodic grid -/
def step (l : List (Op A V D)) (T : A → Torus size → V) : A → Torus size → V := l.foldl op T

/-- The contents of the domain, without ghost layers -/
def domain [∀ i, NeZero (size i)] (st : Arrays A V D) : A → Torus size → V := fun a x => st a fun i => ((x i).val : ℤ)

/-- The kernel reads nothing but the accesses it states. -/
def Local (k : Kernel A V D) : Prop :=
  ∀ w w' : A → Vec D → V, (∀ r ∈ k.reads, w r.1 r.2 = w' r.1 r.2) → ∀ a ∈ k.writes, k.fn w a = k.fn w' a

/-- All kernels of the time step are local. -/
def AllLocal (l : List (Op A V D)) : Prop := ∀ k, Op.kernel k ∈ l → Local k

/-- The cells are treated in any order, each of them once. -/
def Valid (size : Fin D → ℕ) (order : Schedule D) : Prop := ∀ t e, (order t e).Nodup ∧ ∀ y, y ∈ order t e ↔ Within size e y

end Spec

/-! ## Kernels in any order -/

/-- No array is written and also read in a neighbouring cell. -/
def Independent (k : Kernel A V D) : Prop := ∀ r ∈ k.reads, r.1 ∈ k.writes → r.2 = 0

instance (k : Kernel A V D) : Decidable (Independent k) := by unfold Independent; infer_instance

theorem foldl_cell (k : Kernel A V D) (hl : Spec.Local k) (hi : Independent k) (l : List (Vec D)) (hn : l.Nodup) (st : Arrays A V D) (a : A)
    (z : Vec D) : l.foldl k.cell st a z = if a ∈ k.writes ∧ z ∈ l then k.fn (fun b o => st b (z + o)) a else st a z := by
  induction l generalizing st with
  | nil => simp
  | cons y l ih =>
    rw [List.nodup_cons] at hn
    rw [List.foldl_cons, ih hn.2]
    by_cases ha : a ∈ k.writes
    · by_cases hz : z ∈ l
      · rw [if_pos ⟨ha, hz⟩, if_pos ⟨ha, List.mem_cons_of_mem _ hz⟩]
        refine hl _ _ ?_ a ha
        intro r hr
        unfold Kernel.cell
        rw [if_neg]
        rintro ⟨hw, he⟩
        have := hi r hr hw
        rw [this, add_zero] at he
        exact hn.1 (he ▸ hz)
      · rw [if_neg (by tauto)]
        unfold Kernel.cell
        by_cases hy : z = y
        · subst hy
          rw [if_pos ⟨ha, rfl⟩, if_pos ⟨ha, by simp⟩]
        · rw [if_neg (by tauto), if_neg]
          simp [hy, hz]
    · rw [if_neg (by tauto), if_neg (by tauto)]
      unfold Kernel.cell
      rw [if_neg (by tauto)]

/-! ## How many ghost layers are up to date -/

/-- Up to `d a` layers around the domain the array `a` has the values of the periodic grid. -/
def UpToDate (size : Fin D → ℕ) (d : A → ℕ) (st : Arrays A V D) (T : A → Spec.Torus size → V) : Prop :=
  ∀ a y, Within size (d a) y → st a y = T a (Spec.toTorus size y)

theorem Within.mono {d e : ℕ} (h : d ≤ e) {y : Vec D} (hy : Within size d y) : Within size e y := by
  intro i
  have := hy i
  constructor <;> omega

theorem UpToDate.mono {d e : A → ℕ} (h : ∀ a, d a ≤ e a) {st : Arrays A V D} {T : A → Spec.Torus size → V} (hu : UpToDate size e st T) :
    UpToDate size d st T := fun a y hy => hu a y (hy.mono (h a))

theorem Within.add {d : ℕ} {y o : Vec D} (hy : Within size d y) : Within size (d + layers o) (y + o) := by
  intro i
  have h1 := hy i
  have h2 : (o i).natAbs ≤ layers o := Finset.le_sup (f := fun i => (o i).natAbs) (Finset.mem_univ i)
  simp only [Pi.add_apply]
  constructor <;> push_cast <;> omega

theorem toTorus_add (y o : Vec D) : Spec.toTorus size (y + o) = Spec.toTorus size y + Spec.toTorus size o := by
  funext i
  simp [Spec.toTorus]

theorem toTorus_mod (y : Vec D) : Spec.toTorus size (fun i => y i % size i) = Spec.toTorus size y := by
  funext i
  simp only [Spec.toTorus]
  rw [ZMod.intCast_eq_intCast_iff]
  exact Int.mod_modEq _ _

theorem UpToDate.sync [∀ i, NeZero (size i)] {d : A → ℕ} {st : Arrays A V D} {T : A → Spec.Torus size → V} (g : ℕ) (arrays : List A)
    (h : UpToDate size d st T) : UpToDate size (fun a => if a ∈ arrays then g else d a) (syncArrays size g arrays st) T := by
  intro a y hy
  unfold syncArrays
  by_cases ha : a ∈ arrays
  · simp only [ha, if_true] at hy
    rw [if_pos ⟨ha, hy⟩, h a _ ?_, toTorus_mod]
    intro i
    have hs : (0 : ℤ) < size i := by exact_mod_cast Nat.pos_of_ne_zero (NeZero.ne (size i))
    have h1 := Int.emod_nonneg (y i) hs.ne'
    have h2 := Int.emod_lt_of_pos (y i) hs
    beta_reduce
    constructor <;> omega
  · simp only [ha, if_false] at hy
    rw [if_neg (by tauto)]
    exact h a y hy

theorem UpToDate.swap {d : A → ℕ} {st : Arrays A V D} {T : A → Spec.Torus size → V} (a b : A) (h : UpToDate size d st T) :
    UpToDate size (swapArrays a b d) (swapArrays a b st) (swapArrays a b T) := by
  intro c y hy
  unfold swapArrays at hy ⊢
  split_ifs at hy ⊢
  · exact h _ _ hy
  · exact h _ _ hy
  · exact h _ _ hy

theorem UpToDate.kernel {d d' : A → ℕ} {st : Arrays A V D} {T : A → Spec.Torus size → V} (k : Kernel A V D) (e : ℕ) (l : List (Vec D))
    (hn : l.Nodup) (hl : ∀ y, y ∈ l ↔ Within size e y) (hk : Spec.Local k) (hi : Independent k)
    (hw : ∀ a ∈ k.writes, d' a ≤ e ∧ ∀ r ∈ k.reads, d' a + layers r.2 ≤ d r.1) (ho : ∀ a ∉ k.writes, d' a ≤ d a)
    (h : UpToDate size d st T) : UpToDate size d' (l.foldl k.cell st) (Spec.op T (.kernel k)) := by
  intro a y hy
  rw [foldl_cell k hk hi l hn]
  simp only [Spec.op]
  by_cases ha : a ∈ k.writes
  · obtain ⟨h1, h2⟩ := hw a ha
    rw [if_pos ⟨ha, (hl y).2 (hy.mono h1)⟩, if_pos ha]
    refine hk _ _ ?_ a ha
    intro r hr
    rw [h r.1 (y + r.2) (hy.add.mono (h2 r hr)), toTorus_add]
  · rw [if_neg (by tauto), if_neg ha]
    exact h a y (hy.mono (ho a ha))

/-- How many layers are up to date afterwards; `none` if a kernel reads more than there are -/
def Op.depths (g : ℕ) (d : A → ℕ) : Op A V D → Option (A → ℕ)
  | .sync arrays => some fun a => if a ∈ arrays then g else d a
  | .kernel k =>
    if (∀ r ∈ k.reads, layers r.2 ≤ d r.1) ∧ Independent k ∧ k.extension g + k.needs ≤ g then
      some fun a => if a ∈ k.writes then (k.reads.map fun r => d r.1 - layers r.2).foldr min (k.extension g) else d a
    else none
  | .swap a b => some (swapArrays a b d)

/-- The same for a list of parts -/
def depths (g : ℕ) : List (Op A V D) → (A → ℕ) → Option (A → ℕ)
  | [], d => some d
  | op :: l, d => (op.depths g d).bind fun d' => depths g l d'

theorem foldr_min_le (l : List ℕ) (e : ℕ) : l.foldr min e ≤ e ∧ ∀ x ∈ l, l.foldr min e ≤ x := by
  induction l with
  | nil => simp
  | cons b l ih =>
    simp only [List.foldr_cons, List.mem_cons, forall_eq_or_imp]
    refine ⟨(min_le_right _ _).trans ih.1, min_le_left _ _, fun x hx => (min_le_right _ _).trans (ih.2 x hx)⟩

theorem le_foldr_min (l : List ℕ) (e m : ℕ) (he : m ≤ e) (hl : ∀ x ∈ l, m ≤ x) : m ≤ l.foldr min e := by
  induction l with
  | nil => simpa
  | cons b l ih =>
    simp only [List.foldr_cons]
    exact le_min (hl b (by simp)) (ih fun x hx => hl x (by simp [hx]))

theorem op_refines [∀ i, NeZero (size i)] (g : ℕ) (order : ℕ → List (Vec D)) (ho : ∀ e, (order e).Nodup ∧ ∀ y, y ∈ order e ↔ Within size e y)
    (op : Op A V D) (hl : ∀ k, op = .kernel k → Spec.Local k) {d d' : A → ℕ} (hd : op.depths g d = some d') {st : Arrays A V D}
    {T : A → Spec.Torus size → V} (h : UpToDate size d st T) :
    ∃ st', op.run size g order st = some st' ∧ UpToDate size d' st' (Spec.op T op) := by
  cases op with
  | sync arrays =>
    cases hd
    exact ⟨_, rfl, h.sync g arrays⟩
  | swap a b =>
    cases hd
    exact ⟨_, rfl, h.swap a b⟩
  | kernel k =>
    simp only [Op.depths] at hd
    split_ifs at hd with hc
    cases hd
    obtain ⟨h1, h2, h3⟩ := hc
    refine ⟨_, by rw [Op.run, if_pos h3], ?_⟩
    refine UpToDate.kernel k (k.extension g) _ (ho _).1 (ho _).2 (hl k rfl) h2 ?_ ?_ h
    · intro a ha
      simp only [ha, if_true]
      have := foldr_min_le (k.reads.map fun r => d r.1 - layers r.2) (k.extension g)
      refine ⟨this.1, fun r hr => ?_⟩
      have e := this.2 _ (List.mem_map_of_mem (f := fun r => d r.1 - layers r.2) hr)
      have := h1 r hr
      omega
    · intro a ha
      simp [ha]

theorem ops_refine [∀ i, NeZero (size i)] (g : ℕ) (order : Schedule D) (ho : Spec.Valid size order) (l : List (Op A V D))
    (hl : Spec.AllLocal l) (t : ℕ) {d d' : A → ℕ} (hd : depths g l d = some d') {st : Arrays A V D} {T : A → Spec.Torus size → V}
    (h : UpToDate size d st T) : ∃ st', runOps size g order t l st = some st' ∧ UpToDate size d' st' (Spec.step l T) := by
  induction l generalizing t d st T with
  | nil =>
    cases hd
    exact ⟨st, rfl, h⟩
  | cons op l ih =>
    rw [depths] at hd
    cases h1 : op.depths g d with
    | none => rw [h1] at hd; cases hd
    | some d1 =>
      rw [h1] at hd
      obtain ⟨st1, e1, u1⟩ := op_refines g (order t) (ho t) op (fun k hk => hl k (by simp [hk])) h1 h
      obtain ⟨st2, e2, u2⟩ := ih (fun k hk => hl k (by simp [hk])) (t + 1) hd u1
      exact ⟨st2, by rw [runOps, e1]; exact e2, u2⟩

/-! ## Time steps -/

/-- The step passes from whatever number of layers that are up to date. -/
def Passes (g : ℕ) (l : List (Op A V D)) : Prop := ∀ d, ∃ d', depths g l d = some d'

theorem upToDate_domain [∀ i, NeZero (size i)] (st : Arrays A V D) : UpToDate size (fun _ => 0) st (Spec.domain st) := by
  intro a y hy
  unfold Spec.domain Spec.toTorus
  congr 1
  funext i
  have h := hy i
  rw [ZMod.val_intCast]
  rw [Int.emod_eq_of_lt] <;> have := hy i <;> push_cast at this <;> omega

theorem UpToDate.domain [∀ i, NeZero (size i)] {d : A → ℕ} {st : Arrays A V D} {T : A → Spec.Torus size → V} (h : UpToDate size d st T) :
    Spec.domain st = T := by
  funext a x
  unfold Spec.domain
  rw [h a]
  · congr 1
    funext i
    simp [Spec.toTorus]
  · intro i
    have := ZMod.val_lt (x i)
    beta_reduce
    constructor <;> omega

/-- **C90 (time steps).** If the layers suffice, any number of time steps on arrays with ghost layers is within the arrays and gives in the domain
what the time steps on the periodic grid give. -/
theorem C90_steps [∀ i, NeZero (size i)] (g : ℕ) (order : Schedule D) (ho : Spec.Valid size order) (l : List (Op A V D))
    (hl : Spec.AllLocal l) (hp : Passes g l) (t n : ℕ) (st : Arrays A V D) :
    ∃ st', runSteps size g order l t n st = some st' ∧ Spec.domain st' = (Spec.step l)^[n] (Spec.domain (size := size) st) := by
  induction n generalizing t st with
  | zero => exact ⟨st, rfl, rfl⟩
  | succ n ih =>
    obtain ⟨d, hd⟩ := hp fun _ => 0
    obtain ⟨st1, e1, u1⟩ := ops_refine g order ho l hl t hd (upToDate_domain (size := size) st)
    obtain ⟨st2, e2, u2⟩ := ih (t + l.length) st1
    refine ⟨st2, by rw [runSteps, e1]; exact e2, ?_⟩
    rw [u2, Function.iterate_succ_apply, u1.domain]

theorem depths_append (g : ℕ) (l l' : List (Op A V D)) (d : A → ℕ) : depths g (l ++ l') d = (depths g l d).bind (depths g l') := by
  induction l generalizing d with
  | nil => rfl
  | cons op l ih =>
    rw [List.cons_append, depths, depths]
    cases op.depths g d with
    | none => rfl
    | some d1 => exact ih d1

/-- If beforehand `P` holds of the numbers of layers that are up to date, then the parts pass and afterwards `Q` holds. -/
def Triple (g : ℕ) (P : (A → ℕ) → Prop) (l : List (Op A V D)) (Q : (A → ℕ) → Prop) : Prop :=
  ∀ d, P d → ∃ d', depths g l d = some d' ∧ Q d'

section Rules

variable {g : ℕ} {P Q R : (A → ℕ) → Prop} {l l' : List (Op A V D)}

theorem Triple.passes (h : Triple g (fun _ => True) l Q) : Passes g l := fun d => by
  obtain ⟨d', e, _⟩ := h d trivial
  exact ⟨d', e⟩

theorem Triple.append (h : Triple g P l Q) (h' : Triple g Q l' R) : Triple g P (l ++ l') R := by
  intro d hd
  obtain ⟨d1, e1, q1⟩ := h d hd
  obtain ⟨d2, e2, q2⟩ := h' d1 q1
  exact ⟨d2, by rw [depths_append, e1]; exact e2, q2⟩

theorem Triple.nil (h : ∀ d, P d → Q d) : Triple g P ([] : List (Op A V D)) Q := fun d hd => ⟨d, rfl, h d hd⟩

theorem Triple.cons {op : Op A V D} (h : Triple g P [op] Q) (h' : Triple g Q l' R) : Triple g P (op :: l') R := Triple.append h h'

theorem Triple.sync (arrays : List A) (h : ∀ d, P d → Q fun a => if a ∈ arrays then g else d a) :
    Triple g P [(Op.sync arrays : Op A V D)] Q := fun d hd => ⟨_, rfl, h d hd⟩

theorem Triple.swap (a b : A) (h : ∀ d, P d → Q (swapArrays a b d)) : Triple g P [(Op.swap a b : Op A V D)] Q := fun d hd => ⟨_, rfl, h d hd⟩

/-- A kernel passes if what it reads is up to date; what it writes is so if it is written and all it is made of is. -/
theorem Triple.kernel (k : Kernel A V D) (hi : Independent k) (hg : k.extension g + k.needs ≤ g) (hr : ∀ d, P d → ∀ r ∈ k.reads, layers r.2 ≤ d r.1)
    (h : ∀ d d', P d → (∀ a ∉ k.writes, d' a = d a) →
      (∀ m a, a ∈ k.writes → m ≤ k.extension g → (∀ r ∈ k.reads, m + layers r.2 ≤ d r.1) → m ≤ d' a) → Q d') :
    Triple g P [Op.kernel k] Q := by
  intro d hd
  refine ⟨fun a => if a ∈ k.writes then (k.reads.map fun r => d r.1 - layers r.2).foldr min (k.extension g) else d a, ?_, ?_⟩
  · rw [depths, Op.depths, if_pos ⟨hr d hd, hi, hg⟩]
    rfl
  · refine h d _ hd (fun a ha => by simp [ha]) ?_
    intro m a ha hm hb
    simp only [ha, if_true]
    refine le_foldr_min _ _ _ hm ?_
    intro x hx
    obtain ⟨r, hr, rfl⟩ := List.mem_map.1 hx
    have := hb r hr
    beta_reduce
    omega

theorem Triple.flatMap {f : ℕ → List (Op A V D)} (l : List ℕ) (J : List ℕ → (A → ℕ) → Prop)
    (h : ∀ i l, Triple g (J (i :: l)) (f i) (J l)) : Triple g (J l) (l.flatMap f) (J []) := by
  induction l with
  | nil => exact Triple.nil fun _ h => h
  | cons i l ih =>
    rw [List.flatMap_cons]
    exact (h i l).append ih

end Rules

/-! ## Accesses -/

omit [DecidableEq A] in
theorem needs_le {k : Kernel A V D} {m : ℕ} (h : ∀ r ∈ k.reads, layers r.2 ≤ m) : k.needs ≤ m := by
  have key : ∀ l : List ℕ, (∀ x ∈ l, x ≤ m) → l.foldr max 0 ≤ m := by
    intro l
    induction l with
    | nil => simp
    | cons b l ih =>
      intro hl
      simp only [List.foldr_cons]
      exact max_le (hl b (by simp)) (ih fun x hx => hl x (by simp [hx]))
  refine key _ fun x hx => ?_
  obtain ⟨r, hr, rfl⟩ := List.mem_map.1 hx
  exact h r hr

theorem mem_allVecs (D n : ℕ) (v : Vec D) : v ∈ box.allVecs D n ↔ ∀ i, 0 ≤ v i ∧ v i < n := by
  induction D with
  | zero =>
    simp only [box.allVecs, List.mem_singleton, IsEmpty.forall_iff, iff_true]
    exact Subsingleton.elim _ _
  | succ D ih =>
    simp only [box.allVecs, List.mem_flatMap, List.mem_map, List.mem_range]
    constructor
    · rintro ⟨w, hw, k, hk, rfl⟩ i
      refine Fin.cases ?_ (fun j => ?_) i
      · simp only [Fin.cons_zero]
        omega
      · simp only [Fin.cons_succ]
        exact (ih w).1 hw j
    · intro h
      refine ⟨Fin.tail v, (ih _).2 fun i => h i.succ, (v 0).toNat, ?_, ?_⟩
      · have := h 0
        omega
      · have := (h 0).1
        rw [Int.toNat_of_nonneg this, Fin.cons_self_tail]

/-- **C90 (accesses).** The accesses around a cell are those of all offsets that need no more layers. -/
theorem C90_box (D r : ℕ) (o : Vec D) : o ∈ box D r ↔ layers o ≤ r := by
  unfold box layers
  simp only [List.mem_map, mem_allVecs, Finset.sup_le_iff, Finset.mem_univ, true_imp_iff]
  constructor
  · rintro ⟨v, hv, rfl⟩ i
    have := hv i
    beta_reduce
    omega
  · intro h
    refine ⟨fun i => o i + r, fun i => ?_, ?_⟩
    · have := h i
      push_cast
      constructor <;> omega
    · funext i
      ring

theorem layers_around {r : ℕ} {l : List Arr} {x : Arr × Vec D} (h : x ∈ around r l) : x.1 ∈ l ∧ layers x.2 ≤ r := by
  simp only [around, List.mem_flatMap, List.mem_map] at h
  obtain ⟨a, ha, o, ho, rfl⟩ := h
  exact ⟨ha, (C90_box D r o).1 ho⟩

theorem layers_centre {l : List Arr} {x : Arr × Vec D} (h : x ∈ centre l) : x.1 ∈ l ∧ x.2 = 0 ∧ layers x.2 = 0 := by
  simp only [centre, List.mem_map] at h
  obtain ⟨a, ha, rfl⟩ := h
  refine ⟨ha, rfl, ?_⟩
  simp [layers]

section Kernels

variable (fns : Krn → (Arr → Vec D → V) → Arr → V)

/-- A kernel of the models passes if the arrays it reads around the cell are up to date. -/
theorem Triple.mk {g r : ℕ} {P Q : (Arr → ℕ) → Prop} (name : Krn) (l c w : List Arr) (gl : Option ℕ) (hl : ∀ a ∈ l, a ∉ w)
    (hg : r ≤ gl.getD r ∧ gl.getD r ≤ g) (hr : ∀ d, P d → ∀ a ∈ l, r ≤ d a)
    (h : ∀ d d', P d → (∀ a ∉ w, d' a = d a) →
      (∀ m a, a ∈ w → m + gl.getD r ≤ g → (∀ b ∈ l, m + r ≤ d b) → (∀ b ∈ c, m ≤ d b) → m ≤ d' a) → Q d') :
    Triple g P [(GhostLayers.mk fns name (around r l ++ centre c) w gl : Op Arr V D)] Q := by
  have hn : ∀ x ∈ (around r l ++ centre c : List (Arr × Vec D)), layers x.2 ≤ r := by
    intro x hx
    rcases List.mem_append.1 hx with hx | hx
    · exact (layers_around hx).2
    · rw [(layers_centre hx).2.2]
      exact Nat.zero_le r
  have hneeds : (⟨around r l ++ centre c, w, gl, fns name⟩ : Kernel Arr V D).needs ≤ r := needs_le hn
  have hext : g - gl.getD r ≤ (⟨around r l ++ centre c, w, gl, fns name⟩ : Kernel Arr V D).extension g := by
    unfold Kernel.extension
    cases gl with
    | none =>
      simp only [Option.getD_none]
      omega
    | some m => simp
  refine Triple.kernel _ ?_ ?_ ?_ ?_
  · intro x hx hw
    rcases List.mem_append.1 hx with hx | hx
    · exact absurd hw (hl _ (layers_around hx).1)
    · exact (layers_centre hx).2.1
  · unfold Kernel.extension
    cases gl with
    | none =>
      simp only [Option.getD_none] at hg ⊢
      omega
    | some m =>
      simp only [Option.getD_some] at hg ⊢
      omega
  · intro d hd x hx
    rcases List.mem_append.1 hx with hx | hx
    · exact (layers_around hx).2.trans (hr d hd _ (layers_around hx).1)
    · rw [(layers_centre hx).2.2]
      exact Nat.zero_le _
  · intro d d' hd h1 h2
    refine h d d' hd h1 ?_
    intro m a ha hm hb hc
    refine h2 m a ha (by omega) ?_
    intro x hx
    rcases List.mem_append.1 hx with hx | hx
    · have := hb _ (layers_around hx).1
      have := (layers_around hx).2
      omega
    · have := hc _ (layers_centre hx).1
      rw [(layers_centre hx).2.2]
      omega

/-- The same without further accesses -/
theorem Triple.mk_around {g r : ℕ} {P Q : (Arr → ℕ) → Prop} (name : Krn) (l w : List Arr) (gl : Option ℕ) (hl : ∀ a ∈ l, a ∉ w)
    (hg : r ≤ gl.getD r ∧ gl.getD r ≤ g) (hr : ∀ d, P d → ∀ a ∈ l, r ≤ d a)
    (h : ∀ d d', P d → (∀ a ∉ w, d' a = d a) → (∀ m a, a ∈ w → m + gl.getD r ≤ g → (∀ b ∈ l, m + r ≤ d b) → m ≤ d' a) → Q d') :
    Triple g P [(GhostLayers.mk fns name (around r l) w gl : Op Arr V D)] Q := by
  have e : (around r l : List (Arr × Vec D)) = around r l ++ centre [] := by simp [centre]
  rw [e]
  exact Triple.mk fns name l [] w gl hl hg hr fun d d' hd h1 h2 => h d d' hd h1 fun m a ha hm hb => h2 m a ha hm hb (by simp)

/-- A kernel that reads only its own cell passes always. -/
theorem Triple.mk_centre {g : ℕ} {P Q : (Arr → ℕ) → Prop} (name : Krn) (c w : List Arr)
    (h : ∀ d d', P d → (∀ a ∉ w, d' a = d a) → (∀ m a, a ∈ w → m ≤ g → (∀ b ∈ c, m ≤ d b) → m ≤ d' a) → Q d') :
    Triple g P [(GhostLayers.mk fns name (centre c) w none : Op Arr V D)] Q :=
  Triple.mk (r := 0) fns name [] c w none (by simp) (by simp) (by simp)
    fun d d' hd h1 h2 => h d d' hd h1 fun m a ha hm hc => h2 m a ha (by simpa using hm) (by simp) hc

end Kernels

/-! ## The models -/

section Models

variable (fns : Krn → (Arr → Vec D → V) → Arr → V) {g : ℕ}

theorem mem_all {n : ℕ} {f : ℕ → Arr} {a : Arr} : a ∈ all n f ↔ ∃ i < n, f i = a := by simp [all]

theorem hydro_passes (hg : 1 ≤ g) (density : Option ℕ) : Triple g (fun _ => True) (hydroStep fns density : List (Op Arr V D)) fun _ => True := by
  unfold hydroStep
  refine Triple.cons (Triple.mk_centre fns _ _ _ fun _ _ _ _ _ => trivial) ?_
  refine Triple.cons (Q := fun d => g ≤ d .hydro) (Triple.sync _ fun d _ => by simp) ?_
  refine Triple.cons (Triple.mk fns (r := 1) _ _ _ _ none ?_ ⟨le_refl _, hg⟩ ?_ fun _ _ _ _ _ => trivial) (Triple.swap _ _ fun _ _ => trivial)
  · intro a ha
    simp only [List.mem_singleton] at ha
    subst ha
    cases density <;> simp
  · intro d hd a ha
    simp only [List.mem_singleton] at ha
    subst ha
    omega

theorem ch_passes (hg : 1 ≤ g) (i : ℕ) : Triple g (fun _ => True) (chStep fns i : List (Op Arr V D)) fun _ => True := by
  unfold chStep
  refine Triple.cons (Q := fun d => g ≤ d (.ch i)) (Triple.sync _ fun d _ => by simp) ?_
  refine Triple.cons (Triple.mk fns (r := 1) _ _ _ _ none ?_ ⟨le_refl _, hg⟩ ?_ fun _ _ _ _ _ => trivial) (Triple.swap _ _ fun _ _ => trivial)
  · intro a ha
    simp only [List.mem_singleton] at ha
    subst ha
    simp
  · intro d hd a ha
    simp only [List.mem_singleton] at ha
    subst ha
    omega

theorem swaps_pass (l : List (Arr × Arr)) : Triple g (fun _ => True) (l.map fun p => (Op.swap p.1 p.2 : Op Arr V D)) fun _ => True := by
  induction l with
  | nil => exact Triple.nil fun _ h => h
  | cons p l ih => exact Triple.cons (Triple.swap _ _ fun _ _ => trivial) ih

theorem fd_passes (hg : 1 ≤ g) (n : ℕ) : Triple g (fun _ => True) (fdStep fns n : List (Op Arr V D)) fun _ => True := by
  unfold fdStep
  refine Triple.cons (Q := fun d => ∀ a ∈ all n .phi ++ [.velocity] ++ all n .mu, g ≤ d a) (Triple.sync _ fun d _ a ha => by simp only [ha, if_true, le_refl]) ?_
  refine Triple.cons (Triple.mk_around fns (r := 1) _ _ _ none ?_ ⟨le_refl _, hg⟩ (fun d hd a ha => hg.trans (hd a ha)) fun _ _ _ _ _ => trivial) ?_
  · intro a ha hw
    obtain ⟨i, _, rfl⟩ := mem_all.1 hw
    simp [all] at ha
  · have := swaps_pass (V := V) (D := D) (g := g) ((List.range n).map fun i => (Arr.phi i, Arr.phiTmp i))
    rwa [List.map_map] at this

/-- **C90 (phase field model).** `PhaseFieldStep` refuses a density among the order parameters together with finite differences; otherwise
all its time steps are those of the periodic grid, with any number of order parameters and at least one ghost layer. -/
theorem C90_phase_field [∀ i, NeZero (size i)] (hg : 1 ≤ g) (order : Schedule D) (ho : Spec.Valid size order) (n : ℕ) (density : Option ℕ)
    (runHydro fd : Bool) :
    (phaseFieldStep fns n density runHydro fd = .error .notImplemented ↔ fd = true ∧ density ≠ none) ∧
    ∀ l : List (Op Arr V D), phaseFieldStep fns n density runHydro fd = .ok l → Spec.AllLocal l → ∀ (t steps : ℕ) (st : Arrays Arr V D),
      ∃ st', runSteps size g order l t steps st = some st' ∧ Spec.domain st' = (Spec.step l)^[steps] (Spec.domain (size := size) st) := by
  constructor
  · unfold phaseFieldStep
    cases fd <;> cases density <;> simp
  · intro l h hl t steps st
    refine C90_steps g order ho l hl ?_ t steps st
    unfold phaseFieldStep at h
    by_cases hc : (fd && density.isSome) = true
    · rw [if_pos hc] at h
      cases h
    rw [if_neg hc] at h
    cases h
    refine Triple.passes (Q := fun _ => True) (Triple.append (Q := fun _ => True) (Triple.append (Q := fun _ => True) ?_ ?_) ?_)
    · refine Triple.cons (Q := fun d => ∀ a ∈ all n .phi, g ≤ d a) (Triple.sync _ fun d _ a ha => by simp only [ha, if_true, le_refl]) ?_
      refine Triple.cons (Q := fun _ => True) (Triple.mk_around fns (r := 1) _ _ _ none ?_ ⟨le_refl _, hg⟩
        (fun d hd a ha => hg.trans (hd a ha)) fun _ _ _ _ _ => trivial) ?_
      · intro a ha
        obtain ⟨i, _, rfl⟩ := mem_all.1 ha
        simp [all]
      · refine Triple.cons (Q := fun d => g ≤ d .pressure) (Triple.sync _ fun d _ => by simp) ?_
        refine Triple.mk fns (r := 1) _ _ _ _ none (by simp) ⟨le_refl _, hg⟩ ?_ fun _ _ _ _ _ => trivial
        intro d hd a ha
        simp only [List.mem_singleton] at ha
        subst ha
        omega
    · cases runHydro
      · exact Triple.nil fun _ h => h
      · exact hydro_passes fns hg density
    · cases fd
      · exact Triple.flatMap _ (fun _ _ => True) fun i _ => ch_passes fns hg i
      · exact fd_passes fns hg n

/-- **C90 (model with direct forces).** The time steps of `PhaseFieldStepDirect`, whose arrays have two ghost layers -/
theorem C90_direct [∀ i, NeZero (size i)] (order : Schedule D) (ho : Spec.Valid size order) (n : ℕ)
    (hl : Spec.AllLocal (directStep fns n : List (Op Arr V D))) (t steps : ℕ) (st : Arrays Arr V D) :
    ∃ st', runSteps size 2 order (directStep fns n) t steps st = some st' ∧
      Spec.domain st' = (Spec.step (directStep fns n))^[steps] (Spec.domain (size := size) st) := by
  refine C90_steps 2 order ho _ hl ?_ t steps st
  unfold directStep
  refine Triple.passes (Q := fun _ => True) (Triple.append (Q := fun d => ∀ i ∈ List.range n, 1 ≤ d (.ch i)) ?_ ?_)
  · refine Triple.cons (Q := fun d => ∀ a ∈ all n .phi, 2 ≤ d a) (Triple.sync _ fun d _ a ha => by simp only [ha, if_true, le_refl]) ?_
    refine Triple.cons (Q := fun _ => True) (Triple.mk_around fns (r := 1) _ _ _ (some 2) ?_ (by simp)
      (fun d hd a ha => one_le_two.trans (hd a ha)) fun _ _ _ _ _ => trivial) ?_
    · intro a ha
      obtain ⟨i, _, rfl⟩ := mem_all.1 ha
      simp [all]
    refine Triple.cons (Q := fun d => ∀ a ∈ all n .mu, 2 ≤ d a) (Triple.sync _ fun d _ a ha => by simp only [ha, if_true, le_refl]) ?_
    refine Triple.cons (Q := fun _ => True) (Triple.mk fns (r := 2) _ _ _ _ (some 2) ?_ (by simp)
      (fun d hd a ha => hd a ha) fun _ _ _ _ _ => trivial) ?_
    · intro a ha
      obtain ⟨i, _, rfl⟩ := mem_all.1 ha
      simp
    refine Triple.cons (Q := fun d => ∀ a ∈ Arr.hydro :: all n .ch, 2 ≤ d a) (Triple.sync _ fun d _ a ha => by simp only [ha, if_true, le_refl]) ?_
    refine Triple.cons (Q := fun d => ∀ i ∈ List.range n, 1 ≤ d (.ch i)) (Triple.mk fns (r := 1) _ _ _ _ none (by simp) (by simp)
      (fun d hd a ha => ?_) fun d d' hd h1 _ i hi => ?_) (Triple.swap _ _ fun d hd i hi => ?_)
    · simp only [List.mem_singleton] at ha
      subst ha
      exact one_le_two.trans (hd _ (by simp))
    · rw [h1 _ (by simp)]
      refine one_le_two.trans (hd _ ?_)
      simp only [List.mem_cons, mem_all]
      exact Or.inr ⟨i, List.mem_range.1 hi, rfl⟩
    · simpa [swapArrays] using hd i hi
  · have : ∀ (l : List ℕ), l.Nodup → Triple 2 (fun d => ∀ i ∈ l, 1 ≤ d (.ch i)) (l.flatMap fun i =>
        [(mk fns (.chStreamCollide i) (around 1 [.ch i] ++ centre [.mu i, .velocity]) [.chTmp i, .phi i] : Op Arr V D),
         .swap (.ch i) (.chTmp i)]) fun _ => True := by
      intro l
      induction l with
      | nil => exact fun _ => Triple.nil fun _ _ => trivial
      | cons i l ih =>
        intro hn
        rw [List.nodup_cons] at hn
        rw [List.flatMap_cons]
        refine Triple.append (Q := fun d => ∀ i ∈ l, 1 ≤ d (.ch i)) ?_ (ih hn.2)
        refine Triple.cons (Q := fun d => ∀ i ∈ l, 1 ≤ d (.ch i)) (Triple.mk fns (r := 1) _ _ _ _ none (by simp) (by simp)
          (fun d hd a ha => ?_) fun d d' hd h1 _ j hj => ?_) (Triple.swap _ _ fun d hd j hj => ?_)
        · simp only [List.mem_singleton] at ha
          subst ha
          exact hd _ (by simp)
        · rw [h1 _ (by simp)]
          exact hd _ (by simp [hj])
        · have hij : j ≠ i := fun h => hn.1 (h ▸ hj)
          simpa [swapArrays, hij] using hd j hj
    exact this _ List.nodup_range

theorem steps_upToDate [∀ i, NeZero (size i)] (order : Schedule D) (ho : Spec.Valid size order) (l : List (Op A V D)) (hl : Spec.AllLocal l)
    {Q : (A → ℕ) → Prop} (h : Triple g (fun _ => True) l Q) (t n : ℕ) (st : Arrays A V D) :
    ∃ st' d, runSteps size g order l t (n + 1) st = some st' ∧ Q d ∧ UpToDate size d st' ((Spec.step l)^[n + 1] (Spec.domain (size := size) st)) := by
  induction n generalizing t st with
  | zero =>
    obtain ⟨d, hd, hq⟩ := h (fun _ => 0) trivial
    obtain ⟨st1, e1, u1⟩ := ops_refine g order ho l hl t hd (upToDate_domain (size := size) st)
    exact ⟨st1, d, by rw [runSteps, e1]; rfl, hq, u1⟩
  | succ n ih =>
    obtain ⟨d1, hd1, _⟩ := h (fun _ => 0) trivial
    obtain ⟨st1, e1, u1⟩ := ops_refine g order ho l hl t hd1 (upToDate_domain (size := size) st)
    obtain ⟨st2, d2, e2, q2, u2⟩ := ih (t + l.length) st1
    refine ⟨st2, d2, by rw [runSteps, e1]; exact e2, q2, ?_⟩
    rw [u1.domain] at u2
    rwa [Function.iterate_succ_apply]

theorem nestler_triple (n : ℕ) (simplex : Bool) :
    Triple 2 (fun _ => True) (nestlerStep fns n simplex : List (Op Arr V D)) fun d => ∀ i < n, 1 ≤ d (.phi i) := by
  unfold nestlerStep
  refine Triple.append (Q := fun d => ∀ i < n, 1 ≤ d (.phi i)) (Triple.append (Q := fun d => ∀ i < n, i ∉ List.range n → 1 ≤ d (.phi i)) ?_ ?_) ?_
  · refine Triple.cons (Q := fun d => ∀ a ∈ all n .phi, 2 ≤ d a) (Triple.sync _ fun d _ a ha => by simp only [ha, if_true, le_refl]) ?_
    refine Triple.cons (Q := fun _ => True) (Triple.mk_around fns (r := 1) _ _ _ none ?_ (by simp)
      (fun d hd a ha => one_le_two.trans (hd a ha)) fun _ _ _ _ _ => trivial) ?_
    · intro a ha
      obtain ⟨i, _, rfl⟩ := mem_all.1 ha
      simp [all]
    refine Triple.cons (Q := fun d => ∀ a ∈ all n .mu, 2 ≤ d a) (Triple.sync _ fun d _ a ha => by simp only [ha, if_true, le_refl]) ?_
    refine Triple.cons (Q := fun _ => True) (Triple.mk fns (r := 2) _ _ _ _ none ?_ (by simp)
      (fun d hd a ha => hd a ha) fun _ _ _ _ _ => trivial) ?_
    · intro a ha
      obtain ⟨i, _, rfl⟩ := mem_all.1 ha
      simp
    refine Triple.cons (Q := fun _ => True) (Triple.mk_centre fns _ _ _ fun _ _ _ _ _ => trivial) ?_
    refine Triple.cons (Q := fun d => 2 ≤ d .hydro) (Triple.sync _ fun d _ => by simp) ?_
    refine Triple.cons (Q := fun _ => True) (Triple.mk_around fns (r := 1) _ _ _ none (by simp) (by simp)
      (fun d hd a ha => ?_) fun _ _ _ _ _ => trivial) ?_
    · simp only [List.mem_singleton] at ha
      subst ha
      exact one_le_two.trans hd
    refine Triple.cons (Q := fun _ => True) (Triple.swap _ _ fun _ _ => trivial) ?_
    exact Triple.mk_centre fns _ _ _ fun d d' _ _ _ i hi hr => absurd (List.mem_range.2 hi) hr
  · have : Triple 2 (fun d : Arr → ℕ => ∀ i < n, i ∉ List.range n → 1 ≤ d (.phi i)) _ (fun d => ∀ i < n, i ∉ ([] : List ℕ) → 1 ≤ d (.phi i)) :=
      Triple.flatMap (f := fun i => [(mk fns (.chCollide i) (centre [.ch i, .phi i, .mu i, .velocity]) [.ch i] : Op Arr V D), .sync [.ch i],
        mk fns (.chStream i) (around 1 [.ch i]) [.chTmp i], .swap (.ch i) (.chTmp i), mk fns (.chGetter i) (centre [.ch i]) [.phi i]])
        (List.range n) (fun l d => ∀ i < n, i ∉ l → 1 ≤ d (.phi i)) ?_
    · simpa using this
    intro i l
    refine Triple.cons (Q := fun d => ∀ j < n, j ∉ i :: l → 1 ≤ d (.phi j)) (Triple.mk_centre fns _ _ _ fun d d' hd h1 _ j hj hl => ?_) ?_
    · rw [h1 _ (by simp)]
      exact hd j hj hl
    refine Triple.cons (Q := fun d => 2 ≤ d (.ch i) ∧ ∀ j < n, j ∉ i :: l → 1 ≤ d (.phi j)) (Triple.sync _ fun d hd => by simpa using hd) ?_
    refine Triple.cons (Q := fun d => 1 ≤ d (.chTmp i) ∧ ∀ j < n, j ∉ i :: l → 1 ≤ d (.phi j)) (Triple.mk_around fns (r := 1) _ _ _ none
      (by simp) (by simp) (fun d hd a ha => ?_) fun d d' hd h1 h2 => ⟨?_, fun j hj hl => ?_⟩) ?_
    · simp only [List.mem_singleton] at ha
      subst ha
      exact one_le_two.trans hd.1
    · refine h2 1 _ (by simp) (by simp) fun b hb => ?_
      simp only [List.mem_singleton] at hb
      subst hb
      exact hd.1
    · rw [h1 _ (by simp)]
      exact hd.2 j hj hl
    refine Triple.cons (Q := fun d => 1 ≤ d (.ch i) ∧ ∀ j < n, j ∉ i :: l → 1 ≤ d (.phi j)) (Triple.swap _ _ fun d hd => by
      simpa [swapArrays] using hd) ?_
    refine Triple.mk_centre fns _ _ _ fun d d' hd h1 h2 j hj hl => ?_
    by_cases hij : j = i
    · subst hij
      refine h2 1 _ (by simp) (by simp) fun b hb => ?_
      simp only [List.mem_singleton] at hb
      subst hb
      exact hd.1
    · rw [h1 _ (by simp [hij])]
      exact hd.2 j hj (by simp [hij, hl])
  · cases simplex
    · exact Triple.nil fun _ h => h
    · refine Triple.mk_centre fns _ _ _ fun d d' hd h1 h2 i hi => ?_
      refine h2 1 _ (mem_all.2 ⟨i, hi, rfl⟩) (by simp) fun b hb => ?_
      obtain ⟨j, hj, rfl⟩ := mem_all.1 hb
      exact hd j hj

/-- **C90 (model of Nestler).** The time steps of `create_model` with the two ghost layers it creates are those of the periodic grid. -/
theorem C90_nestler [∀ i, NeZero (size i)] (order : Schedule D) (ho : Spec.Valid size order) (n : ℕ) (simplex : Bool)
    (hl : Spec.AllLocal (nestlerStep fns n simplex : List (Op Arr V D))) (t steps : ℕ) (st : Arrays Arr V D) :
    ∃ st', runSteps size 2 order (nestlerStep fns n simplex) t steps st = some st' ∧
      Spec.domain st' = (Spec.step (nestlerStep fns n simplex))^[steps] (Spec.domain (size := size) st) :=
  C90_steps 2 order ho _ hl (nestler_triple fns n simplex).passes t steps st

/-- **C90 (what is returned).** `run` returns not the domain but one layer more on every side; after at least one step it has in this
layer the values of the opposite side. -/
theorem C90_returned [∀ i, NeZero (size i)] (order : Schedule D) (ho : Spec.Valid size order) (n : ℕ) (simplex : Bool)
    (hl : Spec.AllLocal (nestlerStep fns n simplex : List (Op Arr V D))) (t steps : ℕ) (st : Arrays Arr V D) :
    (∀ j, returnedShape size 2 j = size j + 2) ∧
    ∃ st', runSteps size 2 order (nestlerStep fns n simplex) t (steps + 1) st = some st' ∧
      ∀ i < n, ∀ y : Vec D, (∀ j, 0 ≤ y j ∧ y j < returnedShape size 2 j) → returned 2 st' (.phi i) y =
        (Spec.step (nestlerStep fns n simplex))^[steps + 1] (Spec.domain (size := size) st) (.phi i) (Spec.toTorus size fun j => y j - 1) := by
  refine ⟨fun j => by unfold returnedShape; omega, ?_⟩
  obtain ⟨st', d, e, hq, hu⟩ := steps_upToDate order ho _ hl (nestler_triple fns n simplex) t steps st
  refine ⟨st', e, fun i hi y hy => ?_⟩
  have h1 := hq i hi
  have := hu (.phi i) (fun j => y j - 1) fun j => by
    have := hy j
    unfold returnedShape at this
    beta_reduce
    constructor <;> omega
  rw [← this]
  unfold returned
  congr 1
  funext j
  push_cast
  ring

end Models

/-! ## Examples -/

/-- All cells of a one-dimensional domain, from left to right -/
def line (size : Fin 1 → ℕ) : Schedule 1 := fun _ e => (List.range (size 0 + 2 * e)).map fun k : ℕ => fun _ => (k : ℤ) - e

theorem line_valid (size : Fin 1 → ℕ) : Spec.Valid size (line size) := by
  intro t e
  constructor
  · refine List.Nodup.map ?_ List.nodup_range
    intro a b h
    have := congrFun h 0
    simp only at this
    omega
  · intro y
    simp only [line, List.mem_map, List.mem_range, Within, Fin.forall_fin_one]
    constructor
    · rintro ⟨k, hk, rfl⟩
      beta_reduce
      constructor <;> omega
    · intro h
      refine ⟨(y 0 + e).toNat, by omega, ?_⟩
      funext i
      rw [Subsingleton.elim i 0]
      omega

/-- The kernel `a = b[1] + c`, arrays being numbered -/
def shiftKernel : Kernel (Fin 3) ℤ 1 := ⟨[(1, fun _ => 1), (2, 0)], [0], none, fun w _ => w 1 (fun _ => 1) + w 2 0⟩

theorem shiftKernel_local : Spec.Local shiftKernel := by
  intro w w' h a ha
  simp only [shiftKernel, List.mem_cons, List.not_mem_nil, or_false, forall_eq_or_imp, forall_eq] at h ⊢
  rw [h.1, h.2]

/-- The hypotheses are met: a step with synchronisation, kernel and swap. -/
example : Passes 1 [Op.sync [1], Op.kernel shiftKernel, Op.swap 0 1] ∧ Spec.AllLocal [Op.sync [1], Op.kernel shiftKernel, Op.swap 0 1] ∧
    Spec.Valid (fun _ : Fin 1 => 4) (line fun _ => 4) := by
  refine ⟨fun d => ?_, ?_, line_valid _⟩
  · refine Triple.passes (Q := fun _ => True) (Triple.cons (Q := fun d => 1 ≤ d 1) (Triple.sync _ fun _ _ => by simp)
      (Triple.cons (Q := fun _ => True) (Triple.kernel _ (by decide) (by decide) (fun d hd => ?_) fun _ _ _ _ _ => trivial)
        (Triple.swap _ _ fun _ _ => trivial))) d
    simpa [shiftKernel, layers] using hd
  · intro k hk
    simp only [List.mem_cons, reduceCtorEq, Op.kernel.injEq, List.not_mem_nil, or_false, false_or] at hk
    subst hk
    exact shiftKernel_local

/-- Without the synchronisation the result is another one. -/
theorem C90_sync_needed : ∃ (st st' : Arrays (Fin 3) ℤ 1), runSteps (fun _ => 4) 1 (line fun _ => 4) [Op.kernel shiftKernel] 0 1 st = some st' ∧
    Spec.domain st' ≠ Spec.step [Op.kernel shiftKernel] (Spec.domain (size := fun _ => 4) st) := by
  refine ⟨fun _ y => if 0 ≤ y 0 ∧ y 0 < 4 then 1 else 0, _, rfl, ?_⟩
  intro h
  have := congrFun (congrFun h 0) (fun _ => 3)
  revert this
  decide +kernel

/-- With an access of two cells one ghost layer is not enough. -/
example : (⟨[(1, fun _ => 2)], [0], none, fun w _ => w 1 fun _ => 2⟩ : Kernel (Fin 3) ℤ 1).extension 1 = 0 ∧
    ∀ order st, (Op.kernel (⟨[(1, fun _ => 2)], [0], none, fun w _ => w 1 fun _ => 2⟩ : Kernel (Fin 3) ℤ 1)).run (fun _ => 4) 1 order st = none := by
  refine ⟨by decide, fun order st => ?_⟩
  rw [Op.run, if_neg (by decide)]

end GhostLayers
end Lbm
