/-
C40, C41, C42: boundary-handling calls, time loop, iterative initialisation.
-/
import Verif.TimeLoop
import Mathlib.Tactic.Linarith
import Mathlib.Tactic.Ring

namespace Lbm

/-! ### C40 -/

/-- kernels of the boundaries for one previous time step, run in order as long as none raises -/
def Spec.runAll {S : Type} : List (BKernel S) → S → Except PyErr S
  | [], s => .ok s
  | k :: ks, s => k s >>= Spec.runAll ks

/-- the time step a kernel for a pattern is generated for -/
def Spec.kernelTime (inplace : Bool) (t : Timestep) : Timestep := if inplace then t else .both

theorem kernel_addBoundary {S : Type} (inplace : Bool) (c : Timestep → BKernel S) (t : Timestep)
    (ht : inplace = true → t ≠ .both) :
    (addBoundary inplace c).kernel (some t) = .ok (c (Spec.kernelTime inplace t)) := by
  cases inplace with
  | false => rfl
  | true =>
    cases t with
    | even => rfl
    | odd => rfl
    | both => exact absurd rfl (ht rfl)

theorem runBoundaries_spec {S : Type} (inplace : Bool) (t : Timestep) (ht : inplace = true → t ≠ .both)
    (creates : List (Timestep → BKernel S)) (s s' : S)
    (h : Spec.runAll (creates.map fun c => c (Spec.kernelTime inplace t)) s = .ok s') :
    runBoundaries (some t) (creates.map (addBoundary inplace)) s = (s', none) := by
  induction creates generalizing s with
  | nil =>
    simp only [List.map_nil, Spec.runAll, Except.ok.injEq] at h
    subst h; rfl
  | cons c cs ih =>
    simp only [List.map_cons, Spec.runAll, bind, Except.bind] at h
    simp only [List.map_cons, runBoundaries, kernel_addBoundary inplace c t ht]
    cases hc : c (Spec.kernelTime inplace t) s with
    | error e => rw [hc] at h; cases h
    | ok s1 => rw [hc] at h; exact ih s1 h

/-- C40. For every list of boundaries and every sequence of calls (even or odd previous time steps for in-place patterns;
any for two-array patterns), if no kernel raises, each call runs the kernels generated for its previous time step, in
order, and the marker is `None` again after each call. -/
theorem C40_calls {S : Type} (inplace : Bool) (creates : List (Timestep → BKernel S)) (ts : List Timestep)
    (ht : ∀ t ∈ ts, inplace = true → t ≠ .both) (prev : Option Timestep) (s s' : S) (hts : ts ≠ [])
    (h : ts.foldlM (fun s t => Spec.runAll (creates.map fun c => c (Spec.kernelTime inplace t)) s) s = .ok s') :
    ts.foldl (fun (st : BHandling S × S × Option PyErr) t => st.1.call t st.2.1)
      (⟨prev, creates.map (addBoundary inplace)⟩, s, none) =
      (⟨none, creates.map (addBoundary inplace)⟩, s', none) := by
  have step : ∀ (prev : Option Timestep) (s s1 : S) (t : Timestep), (inplace = true → t ≠ .both) →
      Spec.runAll (creates.map fun c => c (Spec.kernelTime inplace t)) s = .ok s1 →
      (BHandling.mk prev (creates.map (addBoundary inplace))).call t s =
        (⟨none, creates.map (addBoundary inplace)⟩, s1, none) := by
    intro prev s s1 t ht h
    simp only [BHandling.call, runBoundaries_spec inplace t ht creates s s1 h]
  have key : ∀ (ts : List Timestep) (s : S), (∀ t ∈ ts, inplace = true → t ≠ .both) →
      ts.foldlM (fun s t => Spec.runAll (creates.map fun c => c (Spec.kernelTime inplace t)) s) s = .ok s' →
      ts.foldl (fun (st : BHandling S × S × Option PyErr) t => st.1.call t st.2.1)
        (⟨none, creates.map (addBoundary inplace)⟩, s, none) =
        (⟨none, creates.map (addBoundary inplace)⟩, s', none) := by
    intro ts
    induction ts with
    | nil =>
      intro s _ h
      simp only [List.foldlM_nil, pure, Except.pure, Except.ok.injEq] at h
      subst h; rfl
    | cons t ts ih =>
      intro s ht h
      rw [List.foldlM_cons] at h
      simp only [bind, Except.bind] at h
      cases hs : Spec.runAll (creates.map fun c => c (Spec.kernelTime inplace t)) s with
      | error e => rw [hs] at h; cases h
      | ok s1 =>
        rw [hs] at h
        rw [List.foldl_cons]
        simp only [step none s s1 t (ht t (by simp)) hs]
        exact ih s1 (fun t h => ht t (by simp [h])) h
  cases ts with
  | nil => exact absurd rfl hts
  | cons t ts =>
    rw [List.foldlM_cons] at h
    simp only [bind, Except.bind] at h
    cases hs : Spec.runAll (creates.map fun c => c (Spec.kernelTime inplace t)) s with
    | error e => rw [hs] at h; cases h
    | ok s1 =>
      rw [hs] at h
      rw [List.foldl_cons]
      simp only [step prev s s1 t (ht t (by simp)) hs]
      exact key ts s1 (fun t h => ht t (by simp [h])) h

/-- kernels that record which of them ran -/
private def recording (b : ℕ) : Timestep → BKernel (List (ℕ × Timestep)) := fun t s => .ok (s ++ [(b, t)])

example : ([Timestep.even, .odd, .even].foldl
    (fun (st : BHandling (List (ℕ × Timestep)) × List (ℕ × Timestep) × Option PyErr) t => st.1.call t st.2.1)
      (⟨none, [recording 0, recording 1].map (addBoundary true)⟩, [], none)).2 =
    ([(0, .even), (1, .even), (0, .odd), (1, .odd), (0, .even), (1, .even)], none) := by decide +kernel

/-- C40. Access to the kernel of an in-place boundary outside a call raises, before the first call and after every
successful one; two-array boundaries always have their kernel. -/
theorem C40_access {S : Type} (c : Timestep → BKernel S) :
    (addBoundary true c).kernel none = .error .exception ∧ (addBoundary false c).kernel none = .ok (c .both) :=
  ⟨rfl, rfl⟩

/-- C40. With an in-place pattern the default argument `Timestep.BOTH` raises `IndexError` as soon as there is a boundary,
before any kernel has run; the fixed loop is refused. -/
theorem C40_both_inplace {S A : Type} (c : Timestep → BKernel S) (cs : List (Timestep → BKernel S)) (prev : Option Timestep)
    (s : S) (calls new : List A) :
    ((BHandling.mk prev ((c :: cs).map (addBoundary true))).call .both s).2 = (s, some .indexError) ∧
    addFixedSteps true calls new = .error .notImplemented ∧ addFixedSteps false calls new = .ok (calls ++ new) :=
  ⟨rfl, rfl, rfl⟩

/-- C40, disagreement: after a call that raised, the marker is not reset, so that an access outside a call returns a
kernel instead of raising. -/
theorem C40_marker_stuck {S : Type} (s : S) : ∃ (c : Timestep → BKernel S) (h : BHandling S) (e : PyErr),
    (BHandling.mk none [addBoundary true c]).call .odd s = (h, s, some e) ∧ h.prevTimestep = some .odd ∧
      (addBoundary true c).kernel h.prevTimestep = .ok (c .odd) :=
  ⟨fun _ _ => .error .valueError, _, .valueError, rfl, rfl, rfl⟩

/-! ### C41 -/

section timeloop
variable {B M : Type}

theorem Arrays.ext' {a b : Arrays B} (h : a.src = b.src) (h0 : a.buf false = b.buf false) (h1 : a.buf true = b.buf true) :
    a = b := by
  cases a; cases b
  simp only [Arrays.mk.injEq] at *
  refine ⟨h, ?_⟩
  funext i; cases i <;> assumption

/-- the recorded calls, executed on arrays with the name table they were recorded with, are two time steps -/
theorem record_eq (s : LbStep B M) (a : Arrays B) :
    (s.record a.src).1.foldl (fun a c => s.exec c a) a = s.timeStep (s.timeStep a) := by
  obtain ⟨src, buf⟩ := a
  cases hk : s.kernels <;> cases src <;>
    (simp only [LbStep.record, LbStep.timeStep, LbStep.exec, LbStep.main, hk, runOn, Arrays.set, Arrays.swap]
     apply Arrays.ext' <;> simp)

theorem timeStep_src (s : LbStep B M) (a : Arrays B) : (s.timeStep a).src = !a.src := by
  cases hk : s.kernels <;> simp [LbStep.timeStep, LbStep.main, hk, runOn, Arrays.set, Arrays.swap]

theorem record_iterate (s : LbStep B M) (k : ℕ) (a : Arrays B) :
    (fun a' => (s.record a.src).1.foldl (fun a c => s.exec c a) a')^[k] a = s.timeStep^[2 * k] a := by
  induction k with
  | zero => rfl
  | succ k ih =>
    rw [Function.iterate_succ_apply', ih]
    have hsrc : (s.timeStep^[2 * k] a).src = a.src := by
      clear ih
      induction k with
      | zero => rfl
      | succ k ih => rw [mul_add, mul_one, Function.iterate_succ_apply', Function.iterate_succ_apply', timeStep_src,
          timeStep_src, Bool.not_not, ih]
    rw [← hsrc, record_eq, mul_add, mul_one, Function.iterate_succ_apply', Function.iterate_succ_apply']

theorem preRun_preRun (gpu mg : Bool) (w : World B M) : preRun gpu mg (preRun gpu mg w) = preRun gpu mg w := by
  cases gpu <;> cases mg <;> simp [preRun, Arrays.set]
  all_goals
    funext j
    split <;> rfl

/-- C41. `run(n)` through the recorded two-step loop gives exactly the state of `n` calls of `time_step` between `pre_run`
and `post_run`: all arrays on CPU and GPU, the name table, macroscopic arrays and the step counter; for both time step
orders, every `n` and every initial state. -/
theorem C41_run (s : LbStep B M) (gpu mg : Bool) (n : ℕ) (w : World B M) : s.run gpu mg n w = s.runOld gpu mg n w := by
  have hn : 2 * (n / 2) + n % 2 = n := by omega
  have hdev : ∀ w : World B M, (s.record (w.dev gpu).src).2 = (w.dev gpu).src := by
    intro w; simp [LbStep.record]
  have hnames : ∀ w : World B M, (w.onDev gpu fun a => { a with src := (w.dev gpu).src }) = w := by
    intro w; cases gpu <;> rfl
  have hcomp : ∀ w : World B M, (w.onDev gpu fun a =>
        (fun a => (s.record (w.dev gpu).src).1.foldl (fun a c => s.exec c a) a)^[n / 2] a).onDev gpu (s.timeStep^[n % 2]) =
      w.onDev gpu (s.timeStep^[n]) := by
    intro w
    have : ∀ a : Arrays B, s.timeStep^[n % 2]
        ((fun a' => (s.record a.src).1.foldl (fun a c => s.exec c a) a')^[n / 2] a) = s.timeStep^[n] a := by
      intro a
      rw [record_iterate, ← Function.iterate_add_apply, add_comm, hn]
    cases gpu <;> simp [World.onDev, World.dev, this]
  simp only [LbStep.run, LbStep.runOld, hn, hdev, hnames, preRun_preRun]
  rw [hcomp]

/-- C41. Any history of `run` and `run_old` calls is the same history with `run_old` only. -/
theorem C41_history (s : LbStep B M) (gpu mg : Bool) (ops : List (Bool × ℕ)) (w : World B M) :
    ops.foldl (fun w o => if o.1 then s.run gpu mg o.2 w else s.runOld gpu mg o.2 w) w =
      ops.foldl (fun w o => s.runOld gpu mg o.2 w) w := by
  congr 1
  funext w o
  split
  · exact C41_run s gpu mg o.2 w
  · rfl

/-- the populations a user sees: the array named `pdfSrc` where the kernels work -/
def World.pdf (gpu : Bool) (w : World B M) : B := (w.dev gpu).buf (w.dev gpu).src

/-- C41. Splitting a run changes nothing: `run(a)` then `run(b)` gives the populations and the step count of
`run(a + b)` - on the GPU the transfers in between are the identity. -/
theorem C41_split (s : LbStep B M) (gpu mg : Bool) (a b : ℕ) (w : World B M) :
    (s.run gpu mg b (s.run gpu mg a w)).dev gpu = (s.run gpu mg (a + b) w).dev gpu ∧
    (s.run gpu mg b (s.run gpu mg a w)).steps = (s.run gpu mg (a + b) w).steps := by
  simp only [C41_run]
  constructor
  · cases gpu with
    | false =>
      simp only [LbStep.runOld, preRun, LbStep.postRun, World.onDev, World.dev, Bool.false_eq_true, if_false]
      rw [add_comm a b, Function.iterate_add_apply]
    | true =>
      have hset : ∀ x : Arrays B, x.set x.src (x.buf x.src) = x := by
        intro x
        apply Arrays.ext'
        · rfl
        · simp only [Arrays.set]; split <;> simp_all
        · simp only [Arrays.set]; split <;> simp_all
      cases mg <;>
        simp [LbStep.runOld, preRun, LbStep.postRun, World.onDev, World.dev, Arrays.set] <;>
        (rw [add_comm a b, Function.iterate_add_apply]
         congr 1
         exact hset _)
  · cases gpu <;> cases mg <;> simp [LbStep.runOld, preRun, LbStep.postRun, World.onDev] <;> omega

/-- a step on pairs of numbers: the kernel adds the source to twice the destination; the odd run ends with swapped
names -/
private def exampleStep : LbStep ℕ ℕ where
  kernels := .collideStream (· + 1) (fun a b => (a, a + 2 * b))
  sync := (· * 3)
  bnd := (· + 5)
  getter := fun b _ => b

example : let w := exampleStep.run false false 3 ⟨⟨false, fun _ => 1⟩, ⟨false, fun _ => 0⟩, 0, 0, 0⟩
    (w.cpu.src, w.cpu.buf false, w.cpu.buf true, w.mac, w.steps) = (true, 215, 309, 309, 3) := by decide +kernel

/-- time step order stream-collide -/
private def exampleGpu : LbStep ℕ ℕ := { exampleStep with kernels := .streamCollide fun a b => (a, a + b) }

/-- on the GPU the initial populations are those of the CPU -/
example : let w := exampleGpu.run true true 3 ⟨⟨false, fun _ => 1⟩, ⟨true, fun _ => 0⟩, 0, 0, 7⟩
    (w.gpu.src, w.gpu.buf false, w.gpu.buf true, w.cpu.buf false, w.mac, w.steps) = (false, 145, 116, 145, 145, 10) := by
  decide +kernel

end timeloop

/-! ### C42 -/

section iter
variable {P V K : Type} [LinearOrder K]

/-- residuum after `j` chunks -/
def Spec.resAfter (m : IterInit P V K) (check : ℕ) (p : P) (v : V) (j : ℕ) : Option K :=
  m.residuum v (m.velocity (m.step^[j * check] p))

/-- the iteration stops at this residuum -/
def Spec.stops (r : Option K) (thr : K) : Prop := r = none ∨ ∃ x, r = some x ∧ x < thr

theorem stops_iff (r : Option K) (thr : K) : (r.isNone || below r thr) = true ↔ Spec.stops r thr := by
  cases r <;> simp [Spec.stops, below]

theorem initLoop_spec (m : IterInit P V K) (thr : K) (check : ℕ) (backup : V) (k : ℕ) :
    ∀ (p : P) (v : V) (r : Option (Option K)) (n : ℕ),
      (∃ j, 1 ≤ j ∧ j ≤ k ∧ Spec.stops (Spec.resAfter m check p backup j) thr ∧
        (∀ i, 1 ≤ i → i < j → ¬ Spec.stops (Spec.resAfter m check p backup i) thr) ∧
        initLoop m thr check backup k p v r n = (m.step^[j * check] p, m.velocity (m.step^[j * check] p),
          some (Spec.resAfter m check p backup j), n + j * check)) ∨
      ((∀ i, 1 ≤ i → i ≤ k → ¬ Spec.stops (Spec.resAfter m check p backup i) thr) ∧
        ((k = 0 ∧ initLoop m thr check backup k p v r n = (p, v, r, n)) ∨
          (1 ≤ k ∧ initLoop m thr check backup k p v r n = (m.step^[k * check] p, m.velocity (m.step^[k * check] p),
            some (Spec.resAfter m check p backup k), n + k * check)))) := by
  induction k with
  | zero =>
    intro p v r n
    exact Or.inr ⟨by intro i h1 h2; omega, Or.inl ⟨rfl, rfl⟩⟩
  | succ k ih =>
    intro p v r n
    have h1 : Spec.resAfter m check p backup 1 = m.residuum backup (m.velocity (m.step^[check] p)) := by
      simp [Spec.resAfter]
    by_cases hs : Spec.stops (Spec.resAfter m check p backup 1) thr
    · left
      refine ⟨1, le_rfl, by omega, hs, by intro i a b; omega, ?_⟩
      rw [initLoop]
      rw [if_pos ((stops_iff _ thr).mpr (h1 ▸ hs)), h1, one_mul]
    · have hun : initLoop m thr check backup (k + 1) p v r n = initLoop m thr check backup k (m.step^[check] p)
          (m.velocity (m.step^[check] p)) (some (m.residuum backup (m.velocity (m.step^[check] p)))) (n + check) := by
        rw [initLoop]
        rw [if_neg]
        rw [stops_iff]; exact h1 ▸ hs
      have hit : ∀ j, m.step^[j * check] (m.step^[check] p) = m.step^[(j + 1) * check] p := by
        intro j; rw [← Function.iterate_add_apply, add_mul, one_mul]
      have hra : ∀ j, Spec.resAfter m check (m.step^[check] p) backup j = Spec.resAfter m check p backup (j + 1) := by
        intro j; unfold Spec.resAfter; rw [hit]
      have hprev : ∀ i, (∀ i', 1 ≤ i' → i' < i → ¬ Spec.stops (Spec.resAfter m check p backup (i' + 1)) thr) →
          ∀ i', 1 ≤ i' → i' < i + 1 → ¬ Spec.stops (Spec.resAfter m check p backup i') thr := by
        intro i h i' a b
        by_cases e : i' = 1
        · subst e; exact hs
        · obtain ⟨t, rfl⟩ : ∃ t, i' = t + 1 := ⟨i' - 1, by omega⟩
          exact h t (by omega) (by omega)
      rw [hun]
      rcases ih (m.step^[check] p) (m.velocity (m.step^[check] p))
        (some (m.residuum backup (m.velocity (m.step^[check] p)))) (n + check) with
        ⟨j, a, b, c, d, e⟩ | ⟨a, b⟩
      · left
        refine ⟨j + 1, by omega, by omega, by rw [← hra]; exact c, ?_, ?_⟩
        · exact hprev j fun i' a b => by rw [← hra]; exact d i' a b
        · rw [e, hit, hra]
          simp only [Prod.mk.injEq, true_and]
          ring
      · right
        refine ⟨?_, Or.inr ⟨by omega, ?_⟩⟩
        · intro i a' b'
          exact hprev (k + 1) (fun i' x y => by rw [← hra]; exact a i' x (by omega)) i a' (by omega)
        · rcases b with ⟨rfl, b⟩ | ⟨hk, b⟩
          · rw [b, h1]; simp
          · rw [b, hit, hra]
            simp only [Prod.mk.injEq, true_and]
            ring

/-- C42. A returned result is converged: the residuum is the one of the final state and below the threshold, it is the
first one below it, the number of steps is a positive multiple of `check_residuum_after` and at most `max_steps`, and
the velocity is that of the final populations. -/
theorem C42_success (m : IterInit P V K) (thr : K) (maxSteps check : ℕ) (p p' : P) (v v' : V) (r : Option K) (n : ℕ)
    (h : iterativeInit m thr maxSteps check p v = (p', v', .ok (r, n))) :
    n ≤ maxSteps ∧ 0 < n ∧ check ∣ n ∧ p' = m.step^[n] p ∧ v' = m.velocity p' ∧ r = m.residuum v v' ∧
      (∃ x, r = some x ∧ x < thr) ∧
      ∀ j, 0 < j → j * check < n → ∃ x, Spec.resAfter m check p v j = some x ∧ thr ≤ x := by
  unfold iterativeInit at h
  split at h
  · simp at h
  · rename_i hc
    have hnot : ∀ q : Option K, ¬ Spec.stops q thr → ∃ x, q = some x ∧ thr ≤ x := by
      intro q hq
      cases q with
      | none => exact absurd (Or.inl rfl) hq
      | some x => exact ⟨x, rfl, not_lt.mp fun hx => hq (Or.inr ⟨x, rfl, hx⟩)⟩
    rcases initLoop_spec m thr check v (maxSteps / check) p v none 0 with ⟨j, a, b, c, d, e⟩ | ⟨a, b⟩
    · rw [e] at h
      simp only [] at h
      split at h
      · rename_i hb
        simp only [Prod.mk.injEq, Except.ok.injEq] at h
        obtain ⟨rfl, rfl, rfl, rfl⟩ := h
        have hpos : 0 < check := Nat.pos_of_ne_zero hc
        refine ⟨?_, by simp; omega, ⟨j, by ring⟩, by simp, rfl, rfl, ?_, ?_⟩
        · have := Nat.div_mul_le_self maxSteps check
          have := Nat.mul_le_mul_right check b
          omega
        · cases hr : Spec.resAfter m check p v j with
          | none => rw [hr] at hb; cases hb
          | some x => rw [hr] at hb; exact ⟨x, rfl, of_decide_eq_true hb⟩
        · intro i hi hlt
          exact hnot _ (d i hi (Nat.lt_of_mul_lt_mul_right (a := check) (by omega)))
      · simp at h
    · rcases b with ⟨hk, b⟩ | ⟨hk, b⟩
      · rw [b] at h; simp at h
      · rw [b] at h
        simp only [] at h
        split at h
        · rename_i hb
          have := a _ hk le_rfl
          exact absurd ((stops_iff _ thr).mp (by rw [hb, Bool.or_true])) this
        · simp at h

/-- C42. When it does not converge, the velocity is the prescribed one again, and no residuum was below the threshold up
to the last one computed: either all `max_steps / check` chunks were run, or the last residuum is NaN. -/
theorem C42_failure (m : IterInit P V K) (thr : K) (maxSteps check : ℕ) (p p' : P) (v v' : V)
    (h : iterativeInit m thr maxSteps check p v = (p', v', .error .valueError)) :
    v' = v ∧ ∃ j, 0 < j ∧ j * check ≤ maxSteps ∧ p' = m.step^[j * check] p ∧
      (∀ i, 0 < i → i ≤ j → ∀ x, Spec.resAfter m check p v i = some x → thr ≤ x) ∧
      (j = maxSteps / check ∨ Spec.resAfter m check p v j = none) := by
  unfold iterativeInit at h
  split at h
  · simp at h
  · rename_i hc
    have hnot : ∀ q : Option K, ¬ Spec.stops q thr → ∀ x, q = some x → thr ≤ x :=
      fun q hq x hx => not_lt.mp fun hlt => hq (Or.inr ⟨x, hx, hlt⟩)
    have hle : ∀ j, j ≤ maxSteps / check → j * check ≤ maxSteps := fun j hj =>
      (Nat.mul_le_mul_right check hj).trans (Nat.div_mul_le_self maxSteps check)
    rcases initLoop_spec m thr check v (maxSteps / check) p v none 0 with ⟨j, a, b, c, d, e⟩ | ⟨a, b⟩
    · rw [e] at h
      simp only [] at h
      split at h
      · simp at h
      · rename_i hb
        simp only [Prod.mk.injEq] at h
        obtain ⟨rfl, rfl, -⟩ := h
        have hnone : Spec.resAfter m check p v j = none := by
          rcases c with c | ⟨x, c, hx⟩
          · exact c
          · rw [c] at hb; exact absurd (by simpa [below] using hx) hb
        refine ⟨rfl, j, a, hle j b, rfl, ?_, Or.inr hnone⟩
        intro i hi hij x hx
        rcases Nat.lt_or_ge i j with hlt | hge
        · exact hnot _ (d i hi hlt) x hx
        · obtain rfl : i = j := by omega
          rw [hnone] at hx; cases hx
    · rcases b with ⟨hk, b⟩ | ⟨hk, b⟩
      · rw [b] at h; simp at h
      · rw [b] at h
        simp only [] at h
        split at h
        · simp at h
        · simp only [Prod.mk.injEq] at h
          obtain ⟨rfl, rfl, -⟩ := h
          exact ⟨rfl, _, hk, hle _ le_rfl, rfl, fun i hi hij => hnot _ (a i hi hij), Or.inl rfl⟩

/-- C42. It always ends in one of four ways: a result, `ValueError`, and two cases in which no step is made - an
`AssertionError` when `max_steps` is smaller than `check_residuum_after`, `ZeroDivisionError` when the latter is 0. -/
theorem C42_total (m : IterInit P V K) (thr : K) (maxSteps check : ℕ) (p : P) (v : V) :
    (∃ p' v' r n, iterativeInit m thr maxSteps check p v = (p', v', .ok (r, n))) ∨
    (∃ p' v', iterativeInit m thr maxSteps check p v = (p', v', .error .valueError)) ∨
    (0 < check ∧ maxSteps < check ∧ iterativeInit m thr maxSteps check p v = (p, v, .error .assertion)) ∨
    (check = 0 ∧ iterativeInit m thr maxSteps check p v = (p, v, .error .exception)) := by
  unfold iterativeInit
  split
  · rename_i hc; exact Or.inr (Or.inr (Or.inr ⟨hc, rfl⟩))
  · rename_i hc
    rcases initLoop_spec m thr check v (maxSteps / check) p v none 0 with ⟨j, a, b, c, d, e⟩ | ⟨a, b⟩
    · rw [e]
      simp only []
      split
      · exact Or.inl ⟨_, _, _, _, rfl⟩
      · exact Or.inr (Or.inl ⟨_, _, rfl⟩)
    · rcases b with ⟨hk, b⟩ | ⟨hk, b⟩
      · rw [b]
        refine Or.inr (Or.inr (Or.inl ⟨Nat.pos_of_ne_zero hc, ?_, rfl⟩))
        exact (Nat.div_eq_zero_iff.mp hk).resolve_left hc
      · rw [b]
        simp only []
        split
        · exact Or.inl ⟨_, _, _, _, rfl⟩
        · exact Or.inr (Or.inl ⟨_, _, rfl⟩)

/-- halving towards 0, starting from 64: converged below 10 after three checks of one step; not within two -/
example : iterativeInit (K := ℕ) ⟨fun p => p / 2, id, fun _ v => some v⟩ 10 5 1 64 100 = (8, 8, .ok (some 8, 3)) ∧
    iterativeInit (K := ℕ) ⟨fun p => p / 2, id, fun _ v => some v⟩ 10 2 1 64 100 = (16, 100, .error .valueError) ∧
    iterativeInit (K := ℕ) ⟨fun p => p / 2, id, fun _ v => some v⟩ 10 2 3 64 100 = (64, 100, .error .assertion) := by
  decide +kernel

end iter

/-- C42. On processes with one block each and the same number of cells, the residuum is the average of the absolute
differences over the whole domain. -/
theorem C42_residuum (blocks : List (List ℚ)) (n : ℕ) (hn : ∀ b ∈ blocks, b.length = n) :
    computeResiduum (blocks.map fun b => [b]) = (blocks.flatten.map abs).sum / blocks.flatten.length := by
  have h1 : ∀ bs : List (List ℚ), (bs.map fun _ => (1 : ℚ)).sum = bs.length := by
    intro bs; induction bs with
    | nil => rfl
    | cons b bs ih => simp [add_comm]
  have h2 : ∀ bs : List (List ℚ), (∀ b ∈ bs, b.length = n) → bs.flatten.length = bs.length * n := by
    intro bs; induction bs with
    | nil => intro _; simp
    | cons b bs ih =>
      intro h
      rw [List.flatten_cons, List.length_append, ih fun b hb => h b (by simp [hb]), h b (by simp), List.length_cons]
      ring
  have h3 : ∀ bs : List (List ℚ), (∀ b ∈ bs, b.length = n) →
      (bs.map blockAverage).sum = (bs.flatten.map abs).sum / n := by
    intro bs; induction bs with
    | nil => intro _; simp
    | cons b bs ih =>
      intro h
      rw [List.map_cons, List.sum_cons, ih fun b hb => h b (by simp [hb]), List.flatten_cons, List.map_append,
        List.sum_append, blockAverage, h b (by simp), add_div]
  unfold computeResiduum
  rw [h2 blocks hn]
  simp only [List.map_map]
  have e1 : (processResiduum ∘ fun b : List ℚ => [b]) = blockAverage := by funext b; rfl
  have e2 := h1 blocks
  rw [e1, h3 blocks hn]
  have e3 : (List.map ((fun _ => (1 : ℚ)) ∘ fun b : List ℚ => [b]) blocks).sum = blocks.length := e2
  rw [e3, Nat.cast_mul, div_div, mul_comm]

example : computeResiduum [[[1, -3]], [[0, 4]]] = 2 := by decide +kernel

/-- C42, disagreement: with several blocks on one process only the last one counts, so that the returned residuum is not
the documented average and can be 0 although the velocity differs everywhere else. -/
theorem C42_residuum_last_block (bs : List (List ℚ)) (b : List ℚ) : computeResiduum [bs ++ [b]] = blockAverage b := by
  simp [computeResiduum, processResiduum]

example : computeResiduum [[[5, 5], [0, 0]]] = 0 := by decide +kernel

end Lbm
