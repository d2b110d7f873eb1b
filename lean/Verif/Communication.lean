/-
Model of `advanced_streaming/communication.py`: slices of populations copied for periodicity / between blocks.

The functions `get_slice_before_ghost_layer` and `shift_slice` belong to pystencils; they are modelled after their
documented contract (slice of the given thickness just inside the ghost layers; shifting start and stop).
-/
import Verif.Sweep

set_option linter.unusedSectionVars false

namespace Lbm

variable {D : ℕ}

/-- One component of a numpy index: an `int`, or a `slice(start, stop)` with `none` for a missing stop. -/
inductive Sl where
  | int (i : ℤ)
  | range (start : ℤ) (stop : Option ℤ)
  deriving DecidableEq, Repr

namespace Sl

/-- python's treatment of negative indices for an axis of length `L`. -/
def resolve (L i : ℤ) : ℤ := if i < 0 then i + L else i

/-- Slice bounds are in addition clamped to the axis. -/
def clamp (L i : ℤ) : ℤ := max 0 (min (resolve L i) L)

/-- first index selected -/
def base (L : ℤ) : Sl → ℤ
  | int i => resolve L i
  | range a _ => clamp L a

/-- is index `z` selected? -/
def Mem (L : ℤ) : Sl → ℤ → Prop
  | int i, z => z = resolve L i
  | range a b, z => clamp L a ≤ z ∧ z < match b with | some b => clamp L b | none => L

/-- number of selected indices of a slice -/
def len (L : ℤ) : Sl → ℤ
  | int _ => 1
  | range a b => max 0 ((match b with | some b => clamp L b | none => L) - clamp L a)

/-- `arr[dst] = arr[src]` is accepted in this component: two valid ints, or two slices of the same length.
(numpy would also broadcast a length-one source; that does not occur here.) -/
def Compat (L : ℤ) : Sl → Sl → Prop
  | int i, int j => (0 ≤ resolve L i ∧ resolve L i < L) ∧ (0 ≤ resolve L j ∧ resolve L j < L)
  | s@(range _ _), d@(range _ _) => len L s = len L d
  | _, _ => False

instance (L : ℤ) : (s : Sl) → (z : ℤ) → Decidable (Mem L s z)
  | int _, _ => inferInstanceAs (Decidable (_ = _))
  | range _ _, _ => inferInstanceAs (Decidable (_ ∧ _))
instance (L : ℤ) : (s d : Sl) → Decidable (Compat L s d)
  | int _, int _ => inferInstanceAs (Decidable (_ ∧ _))
  | range _ _, range _ _ => inferInstanceAs (Decidable (_ = _))
  | int _, range _ _ => .isFalse id
  | range _ _, int _ => .isFalse id

/-- pystencils `get_slice_before_ghost_layer(direction, ghost_layers, thickness=1)`, one component; `none` is its
`ValueError` for components outside {-1, 0, 1}. -/
def beforeGhostLayer (g : ℤ) (d : ℤ) : Option Sl :=
  let stop := if -g = 0 then none else some (-g)
  if d = -1 then some (range g (some (1 + g)))
  else if d = 0 then some (range g stop)
  else if d = 1 then some (range (-1 - g) stop)
  else none

/-- `_fix_length_one_slices` (`communication.py:250-262`), one component. -/
def fixLengthOne : Sl → Sl
  | int i => int i
  | range a (some b) => if |a - b| = 1 then int a else range a (some b)
  | range a none => if a = -1 then int (-1) else range a none

/-- `_trim_slice_in_direction` (`communication.py:265-277`), one component; `none` is the `TypeError` of `None - 1`. -/
def trim : Sl → ℤ → Option Sl
  | int i, _ => some (int i)
  | range a b, d => do
    let start := if d = -1 then a + 1 else a
    let stop ← if d = 1 then b.map fun b => some (b - 1) else some b
    some (range start stop)

/-- pystencils `shift_slice`, one component. -/
def shift : Sl → ℤ → Sl
  | int i, o => int (i + o)
  | range a b, o => range (a + o) (b.map (· + o))

end Sl

/-- A copy `arr[dst + (idx,)] = arr[src + (idx,)]`. -/
structure CopyOp (D Q : ℕ) where
  src : Fin D → Sl
  dst : Fin D → Sl
  idx : Fin Q

/-- numpy execution of a copy on an array whose axes have lengths `L` (`communication.py:93-97`); `none` is an
`IndexError` / shape mismatch. -/
def CopyOp.exec {Q : ℕ} {V : Type} (L : Fin D → ℤ) (op : CopyOp D Q) (f : Vec D × Fin Q → V) :
    Option (Vec D × Fin Q → V) :=
  if ∀ k, (op.src k).Compat (L k) (op.dst k) then
    some fun s =>
      if s.2 = op.idx ∧ ∀ k, (op.dst k).Mem (L k) (s.1 k) then
        f (fun k => s.1 k - (op.dst k).base (L k) + (op.src k).base (L k), s.2)
      else f s
  else none

/-- `_get_neighbour_transform` (`communication.py:246-247`), one component. -/
def neighbourTransform (g d : ℤ) : ℤ := d * (g + 1)

/-- The slices of one (communication direction, streaming direction) pair (`communication.py:156-181`). -/
def commSlices (S : Stencil D) (p : String) (g : ℤ) (wr : Fin S.Q → Access D S.Q) (C : Vec D) (i : Fin S.Q) :
    Option (CopyOp D S.Q) := do
  let src ← collect fun k => do
    let s := Sl.fixLengthOne (← Sl.beforeGhostLayer g (C k))
    if p ≠ "pull" then do
      let s ← s.trim (S.c i k - C k)
      some (s.shift ((wr i).1 k))
    else some s
  some ⟨src, fun k => (src k).shift (neighbourTransform g (C k)), (wr i).2⟩

/-- `itertools.product(*([-1, 0, 1] for _ in range(dim)))` (`communication.py:70`). -/
def allDirs : (D : ℕ) → List (Vec D)
  | 0 => [fun k => k.elim0]
  | D + 1 => [-1, 0, 1].flatMap fun e => (allDirs D).map fun v => Fin.cons e v

/-- `_extend_dir` (`communication.py:234-243`). -/
def extendDir : {D : ℕ} → Vec D → List (Vec D)
  | 0, _ => [fun k => k.elim0]
  | _ + 1, d =>
    if d 0 = 0 then [-1, 0, 1].flatMap fun e => (extendDir (Fin.tail d)).map fun v => Fin.cons e v
    else (extendDir (Fin.tail d)).map fun v => Fin.cons (d 0) v

/-- `is_copy_direction` (`communication.py:61-68`): not all components zero, non-zero components periodic. -/
def isCopyDirection (per : Fin D → Bool) (C : Vec D) : Prop := (∀ k, C k ≠ 0 → per k = true) ∧ ∃ k, C k ≠ 0

instance (per : Fin D → Bool) (C : Vec D) : Decidable (isCopyDirection per C) :=
  inferInstanceAs (Decidable (_ ∧ _))

/-- The (communication direction, streaming direction) pairs of `LBMPeriodicityHandling.__init__` and
`get_communication_slices` (`communication.py:70-82, 150-156`). The order in which python iterates over the set of
streaming directions is not specified; theorems quantify over all orders. -/
def commPairs (S : Stencil D) (per : Fin D → Bool) : List (Vec D × Fin S.Q) :=
  ((allDirs D).filter fun C => isCopyDirection per C).flatMap fun C =>
    ((List.finRange S.Q).filter fun i => S.c i ∈ extendDir C).map fun i => (C, i)

/-- Executing the copies of the given pairs in the given order (`communication.py:93-97`). -/
def runCopies {V : Type} (L : Fin D → ℤ) (S : Stencil D) (p : String) (g : ℤ) (wr : Fin S.Q → Access D S.Q) :
    List (Vec D × Fin S.Q) → (Vec D × Fin S.Q → V) → Option (Vec D × Fin S.Q → V)
  | [], f => some f
  | (C, i) :: rest, f => do
    let op ← commSlices S p g wr C i
    let f ← op.exec L f
    runCopies L S p g wr rest f

/-- `LBMPeriodicityHandling.__call__(prev_timestep)` between step `t` and step `t+1`, for a domain of `N k` inner cells
per axis with `g` ghost layers on each side; `pairs` is an ordering of `commPairs S per`. -/
def periodicHook {V : Type} (N : Fin D → ℕ) (g : ℕ) (S : Stencil D) (p : String) (pairs : List (Vec D × Fin S.Q))
    (t : ℕ) (f : Vec D × Fin S.Q → V) : Option (Vec D × Fin S.Q → V) := do
  let ts ← stepTimestep p t
  let a ← getAccessor D p ts
  let wr ← a.write S
  runCopies (fun k => N k + 2 * g) S p g wr pairs f

/-! ### Helper lemmas -/

theorem mem_allDirs {D : ℕ} {C : Vec D} : C ∈ allDirs D ↔ ∀ k, C k = -1 ∨ C k = 0 ∨ C k = 1 := by
  induction D with
  | zero =>
    simp only [allDirs, List.mem_singleton]
    exact ⟨fun _ k => k.elim0, fun _ => funext fun k => k.elim0⟩
  | succ D ih =>
    simp only [allDirs, List.mem_flatMap, List.mem_map, ih]
    constructor
    · rintro ⟨e, he, v, hv, rfl⟩ k
      refine Fin.cases ?_ (fun k => ?_) k
      · simpa using he
      · simpa using hv k
    · intro h
      exact ⟨C 0, by simpa using h 0, Fin.tail C, fun k => h k.succ, Fin.cons_self_tail C⟩

theorem mem_extendDir {D : ℕ} {C v : Vec D} :
    v ∈ extendDir C ↔ ∀ k, if C k = 0 then v k = -1 ∨ v k = 0 ∨ v k = 1 else v k = C k := by
  induction D with
  | zero =>
    simp only [extendDir, List.mem_singleton]
    exact ⟨fun _ k => k.elim0, fun _ => funext fun k => k.elim0⟩
  | succ D ih =>
    have hsplit : (∀ k, if C k = 0 then v k = -1 ∨ v k = 0 ∨ v k = 1 else v k = C k) ↔
        (if C 0 = 0 then v 0 = -1 ∨ v 0 = 0 ∨ v 0 = 1 else v 0 = C 0) ∧
        ∀ k, if Fin.tail C k = 0 then Fin.tail v k = -1 ∨ Fin.tail v k = 0 ∨ Fin.tail v k = 1
          else Fin.tail v k = Fin.tail C k := by
      rw [Fin.forall_fin_succ]; rfl
    rw [hsplit, ← ih, extendDir]
    split_ifs with h0
    · simp only [List.mem_flatMap, List.mem_map]
      constructor
      · rintro ⟨e, he, v', hv', rfl⟩
        exact ⟨by simpa using he, by simpa using hv'⟩
      · rintro ⟨h1, h2⟩
        exact ⟨v 0, by simpa using h1, Fin.tail v, h2, Fin.cons_self_tail v⟩
    · simp only [List.mem_map]
      constructor
      · rintro ⟨v', hv', rfl⟩
        exact ⟨rfl, by simpa using hv'⟩
      · rintro ⟨h1, h2⟩
        exact ⟨Fin.tail v, h2, by rw [← h1]; exact Fin.cons_self_tail v⟩

theorem mem_commPairs {S : Stencil D} {per : Fin D → Bool} {C : Vec D} {i : Fin S.Q} :
    (C, i) ∈ commPairs S per ↔ (∀ k, C k = -1 ∨ C k = 0 ∨ C k = 1) ∧ isCopyDirection per C ∧
      ∀ k, if C k = 0 then S.c i k = -1 ∨ S.c i k = 0 ∨ S.c i k = 1 else S.c i k = C k := by
  simp only [commPairs, List.mem_flatMap, List.mem_filter, mem_allDirs, List.mem_map, List.mem_finRange, true_and,
    decide_eq_true_eq, mem_extendDir, Prod.mk.injEq]
  constructor
  · rintro ⟨C', ⟨h1, h2⟩, i', h3, rfl, rfl⟩
    exact ⟨h1, h2, h3⟩
  · rintro ⟨h1, h2, h3⟩
    exact ⟨C, ⟨h1, h2⟩, i, h3, rfl, rfl⟩

/-- The write offsets of every accessor lie between the cell and its neighbour. -/
theorem wr_box {S : Stencil D} {p : String} {ts : Timestep} {a : Accessor D} (ha : getAccessor D p ts = some a)
    {wr : Fin S.Q → Access D S.Q} (hw : a.write S = some wr) (i : Fin S.Q) (k : Fin D) :
    (wr i).1 k = 0 ∨ (wr i).1 k = S.c i k := by
  have key : a ∈ [push, pull, aaEven, aaOdd, esoTwistEven, esoTwistOdd, esoPullEven, esoPullOdd, esoPushEven,
      esoPushOdd] := by
    unfold getAccessor at ha
    by_cases hp : p ∈ streamingPatterns
    · simp only [streamingPatterns, List.mem_cons, List.not_mem_nil, or_false] at hp
      rcases hp with rfl | rfl | rfl | rfl | rfl | rfl <;> cases ts <;>
        simp [isInplace, streamingPatterns, evenAccessors, oddAccessors, List.lookup] at ha <;>
        subst ha <;> simp
    · simp [hp] at ha
  simp only [List.mem_cons, List.not_mem_nil, or_false] at key
  have hpos : ∀ e : ℤ, max e 0 = 0 ∨ max e 0 = e := fun e => by omega
  rcases key with rfl | rfl | rfl | rfl | rfl | rfl | rfl | rfl | rfl | rfl <;>
    simp only [push, pull, aaEven, aaOdd, esoTwistEven, esoTwistOdd, esoPullEven, esoPullOdd, esoPushEven,
      esoPushOdd, esoAccess] at hw <;>
    have h := collect_eq_some.1 hw i
  · rw [← Option.some.inj h]; right; rfl
  · rw [← Option.some.inj h]; left; rfl
  · cases hj : S.inverseIndex (S.c i) with
    | none => simp [hj] at h
    | some j => simp [hj] at h; rw [← h]; left; rfl
  · rw [← Option.some.inj h]; right; rfl
  · cases hj : S.inverseIndex (S.c i) with
    | none => simp [hj] at h
    | some j => simp [hj] at h; rw [← h]; exact hpos _
  · rw [← Option.some.inj h]; exact hpos _
  all_goals
    split_ifs at h with h0
    · rw [← Option.some.inj h]; left; rfl
    · cases hb : lehmannEven S (S.c i) with
      | none => simp [hb] at h
      | some b =>
        cases hj : S.inverseIndex (S.c i) with
        | none =>
          cases b <;> simp [hb, hj] at h <;> rw [← h] <;> simp
        | some j =>
          cases b <;> simp [hb, hj] at h <;> rw [← h] <;> simp

end Lbm
