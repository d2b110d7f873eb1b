/-
C39: cumulants and moments.
-/
import Verif.Cumulants
import Verif.Shuffle
import Mathlib.Analysis.SpecialFunctions.Log.Deriv
import Mathlib.Analysis.SpecialFunctions.ExpDeriv
import Mathlib.Analysis.Calculus.IteratedDeriv.Lemmas
import Mathlib.Tactic.FieldSimp

namespace Lbm

open Shuffle

section partitions
variable {α : Type}

/-- set partitions, with the empty partition of the empty list -/
def parts : List α → List (List (List α))
  | [] => [[]]
  | x :: l => (parts l).flatMap fun smaller => insertEach x smaller ++ [[x] :: smaller]

theorem partitions_eq (l : List α) (h : l ≠ []) : partitions l = parts l := by
  induction l with
  | nil => exact absurd rfl h
  | cons x l ih =>
    cases l with
    | nil => rfl
    | cons y l => rw [partitions, parts, ih (by simp)]

theorem insertEach_cons (x : α) (b : List α) (bs : List (List α)) :
    insertEach x (b :: bs) = ((x :: b) :: bs) :: (insertEach x bs).map (b :: ·) := by
  simp only [insertEach, List.length_cons, List.range_succ_eq_map, List.map_cons, List.map_map]
  simp

theorem parts_sublist (l : List α) : ∀ p ∈ parts l, ∀ b ∈ p, b.Sublist l := by
  induction l with
  | nil => intro p hp b hb; simp only [parts, List.mem_singleton] at hp; subst hp; cases hb
  | cons x l ih =>
    intro p hp
    simp only [parts, List.mem_flatMap, List.mem_append, List.mem_singleton] at hp
    obtain ⟨q, hq, h | rfl⟩ := hp
    · have key : ∀ q : List (List α), (∀ b ∈ q, b.Sublist l) → ∀ p ∈ insertEach x q, ∀ b ∈ p, b.Sublist (x :: l) := by
        intro q
        induction q with
        | nil => intro _ p hp; simp [insertEach] at hp
        | cons b bs ih' =>
          intro hb p hp
          rw [insertEach_cons, List.mem_cons, List.mem_map] at hp
          rcases hp with rfl | ⟨p', hp', rfl⟩
          · intro c hc
            rcases List.mem_cons.mp hc with rfl | hc
            · exact (hb b (by simp)).cons_cons x
            · exact (hb c (by simp [hc])).cons x
          · intro c hc
            rcases List.mem_cons.mp hc with rfl | hc
            · exact (hb c (by simp)).cons x
            · exact ih' (fun b h => hb b (by simp [h])) p' hp' c hc
      exact key q (ih q hq) p h
    · intro b hb
      rcases List.mem_cons.mp hb with rfl | hb
      · simp
      · exact (ih q hq b hb).cons x

end partitions

/-! ### The partition sum is the composition in the shuffle ring -/

section faa
variable {α K : Type} [CommRing K]

/-- sum over partitions -/
def partSum (w : ℕ → K) (g : List α → K) (l : List α) : K :=
  ((parts l).map fun p => w p.length * (p.map g).prod).sum

theorem d_prod (x : α) (g : Shuffle α K) (p : List (List α)) :
    d x (p.map fun b => dw b.reverse g).prod = ((insertEach x p).map fun q => (q.map fun b => dw b.reverse g).prod).sum := by
  induction p with
  | nil => simp [insertEach]
  | cons b bs ih =>
    rw [List.map_cons, List.prod_cons, d_mul, ih, insertEach_cons, List.map_cons, List.sum_cons, List.map_map, d_dw]
    congr 1
    · rw [List.map_cons, List.prod_cons, List.reverse_cons]
    · rw [← List.sum_map_mul_left]
      rfl

/-- Faà di Bruno: iterated derivatives of a composition -/
theorem dw_compose (w : ℕ → K) (g : Shuffle α K) (l : List α) : dw l.reverse (compose w g 0) =
    ((parts l).map fun p => compose w g p.length * (p.map fun b => dw b.reverse g).prod).sum := by
  induction l with
  | nil => simp [parts]
  | cons x l ih =>
    rw [List.reverse_cons, ← d_dw, ih, d_sum, parts, List.map_flatMap, List.flatMap_def, List.sum_flatten, List.map_map, List.map_map]
    congr 1
    apply List.map_congr_left
    intro p _
    simp only [Function.comp]
    rw [d_mul, d_prod, d_compose, List.map_append, List.sum_append, add_comm]
    congr 1
    · rw [← List.sum_map_mul_left]
      congr 1
      apply List.map_congr_left
      intro q hq
      have : q.length = p.length := by
        simp only [insertEach, List.mem_map, List.mem_range] at hq
        obtain ⟨n, hn, rfl⟩ := hq
        simp; omega
      rw [this]
    · simp only [List.map_cons, List.map_nil, List.sum_cons, List.sum_nil, add_zero, List.length_cons, List.prod_cons,
        List.reverse_cons, List.reverse_nil, List.nil_append]
      rw [← mul_assoc]
      rfl

/-- a function of words read backwards -/
def rev (g : List α → K) : Shuffle α K := fun W => g W.reverse

theorem partSum_eq (w : ℕ → K) (g : List α → K) (l : List α) :
    partSum w g l = compose w (rev g) 0 l.reverse := by
  rw [← dw_apply_nil l.reverse (compose w (rev g) 0), dw_compose, sum_nil, partSum, List.map_map]
  congr 1
  apply List.map_congr_left
  intro p _
  simp only [Function.comp, mul_nil, compose_nil, prod_nil, List.map_map]
  congr 2
  apply List.map_congr_left
  intro b _
  simp [rev]

theorem partSum_congr (w w' : ℕ → K) (g g' : List α → K) (l : List α) (hw : ∀ n, w n = w' n)
    (h : ∀ b, b.Sublist l → g b = g' b) : partSum w g l = partSum w' g' l := by
  unfold partSum
  congr 1
  apply List.map_congr_left
  intro p hp
  rw [hw]
  congr 2
  apply List.map_congr_left
  intro b hb
  exact h b (parts_sublist l p hp b hb)

end faa

/-! ### Indices and words -/

variable {D : ℕ}

theorem blockIndex_partitionList (index : Fin D → ℕ) : blockIndex (partitionList index) = index := by
  funext i
  rw [blockIndex, partitionList, List.count_flatMap]
  have : (List.count i ∘ fun j => List.replicate (index j) j) = fun j => if j = i then index i else 0 := by
    funext j
    simp only [Function.comp, List.count_replicate]
    by_cases h : j = i
    · subst h; simp
    · simp [h]
  rw [this]
  have key : ∀ l : List (Fin D), l.Nodup → (l.map fun j => if j = i then index i else 0).sum =
      if i ∈ l then index i else 0 := by
    intro l
    induction l with
    | nil => intro _; simp
    | cons a l ih =>
      intro hn
      rw [List.nodup_cons] at hn
      rw [List.map_cons, List.sum_cons, ih hn.2]
      by_cases h : a = i
      · subst h; simp [hn.1]
      · have h' : ¬ i = a := fun e => h e.symm
        simp [h, h', List.mem_cons]
  rw [key _ (List.nodup_finRange D), if_pos (List.mem_finRange i)]

theorem partitionList_sorted (index : Fin D → ℕ) : (partitionList index).Pairwise (· ≤ ·) := by
  unfold partitionList
  rw [List.pairwise_flatMap]
  constructor
  · intro i _; exact List.pairwise_replicate.mpr (Or.inr le_rfl)
  · refine (List.pairwise_lt_finRange D).imp fun {a b} hab x hx y hy => ?_
    rw [List.mem_replicate] at hx hy
    rw [hx.2, hy.2]; exact hab.le

theorem partitionList_blockIndex (b : List (Fin D)) (h : b.Pairwise (· ≤ ·)) : partitionList (blockIndex b) = b := by
  have hp : (partitionList (blockIndex b)).Perm b := by
    rw [List.perm_iff_count]
    intro i
    exact congrFun (blockIndex_partitionList (blockIndex b)) i
  exact hp.eq_of_pairwise' (partitionList_sorted _) h

theorem blockIndex_perm {b b' : List (Fin D)} (h : b.Perm b') : blockIndex b = blockIndex b' := by
  funext i; exact h.count_eq i

theorem partitionList_zero : partitionList (0 : Fin D → ℕ) = [] := by
  simp [partitionList]

/-- the transform is a partition sum -/
theorem transform_eq (outer : ℕ → ℝ → ℝ) (index : Fin D → ℕ) (v : (Fin D → ℕ) → ℝ) :
    partitionTransform outer false index v =
      partSum (fun n => outer n (v 0)) (fun b => v (blockIndex b)) (partitionList index) := by
  have hc : centralize false v = v := by funext i; simp [centralize]
  unfold partitionTransform
  split
  · rename_i h
    rw [h]; simp [partSum, parts]
  · rename_i h
    rw [partitions_eq _ h, hc]
    rfl

theorem transform_centralized (outer : ℕ → ℝ → ℝ) (index : Fin D → ℕ) (v : (Fin D → ℕ) → ℝ) :
    partitionTransform outer true index v = partitionTransform outer false index (centralize true v) := by
  have h0 : centralize true v 0 = v 0 := by
    have : ¬ IsFirstOrder (0 : Fin D → ℕ) := by
      rintro ⟨i, h⟩
      have := congrFun h i
      simp at this
    simp [centralize, this]
  have hc : ∀ v : (Fin D → ℕ) → ℝ, centralize false v = v := by intro v; funext i; simp [centralize]
  unfold partitionTransform
  rw [h0, hc]

/-- moments as a function of words -/
def wordFun (v : (Fin D → ℕ) → ℝ) : Shuffle (Fin D) ℝ := fun W => v (blockIndex W)

theorem wordFun_sym (v : (Fin D → ℕ) → ℝ) (k : ℕ) : Sym k (wordFun v) := fun _ _ hp _ => by
  unfold wordFun; rw [blockIndex_perm hp]

@[simp] theorem wordFun_nil (v : (Fin D → ℕ) → ℝ) : wordFun v [] = v 0 := rfl

theorem transform_compose (outer : ℕ → ℝ → ℝ) (index : Fin D → ℕ) (v : (Fin D → ℕ) → ℝ) :
    partitionTransform outer false index v =
      compose (fun n => outer n (v 0)) (wordFun v) 0 (partitionList index).reverse := by
  rw [transform_eq, partSum_eq]
  congr 2
  apply ext'
  intro W
  exact congrArg v (blockIndex_perm W.reverse_perm)

/-! ### Logarithm and exponential in the shuffle ring -/

section logexp
variable {α : Type}

theorem d_natCast (x : α) (n : ℕ) : d x ((n : ℕ) : Shuffle α ℝ) = 0 := by
  induction n with
  | zero => simp
  | succ n ih => rw [Nat.cast_succ, d_add, ih, d_one, add_zero]

theorem natCast_nil (n : ℕ) : ((n : ℕ) : Shuffle α ℝ) [] = n := by
  induction n with
  | zero => simp
  | succ n ih => rw [Nat.cast_succ, Shuffle.add_apply, ih, one_nil, Nat.cast_succ]

theorem logDeriv_mul (x : ℝ) (hx : x ≠ 0) : logDeriv 1 x * x = 1 ∧ ∀ n, logDeriv (n + 2) x * x + (n + 1) * logDeriv (n + 1) x = 0 := by
  constructor
  · simp [logDeriv, hx]
  · intro n
    simp only [logDeriv, Nat.factorial_succ]
    push_cast
    field_simp
    ring

/-- the first derivative of the logarithm of `M` is its inverse -/
theorem compose_log_mul (M : Shuffle α ℝ) (h : M [] ≠ 0) : compose (fun n => logDeriv n (M [])) M 1 * M = 1 := by
  set F := compose (fun n => logDeriv n (M [])) M with hF
  have hlog := logDeriv_mul (M []) h
  have hH : ∀ n : ℕ, F (n + 2) * M + ((n : Shuffle α ℝ) + 1) * F (n + 1) = 0 := by
    intro n
    rw [compose_unique (fun _ => (0 : ℝ)) M (fun n => F (n + 2) * M + ((n : Shuffle α ℝ) + 1) * F (n + 1)) ?_ ?_ n]
    · exact (compose_unique (fun _ => (0 : ℝ)) M (fun _ => 0) (fun _ => rfl) (fun n x => by simp) n).symm
    · intro n
      simp only [Shuffle.add_apply, mul_nil, natCast_nil, one_nil, hF, compose_nil]
      exact hlog.2 n
    · intro n x
      simp only [d_add, d_mul, d_natCast, d_one, hF, d_compose, Nat.cast_add, Nat.cast_one]
      ring
  apply ext'
  intro L
  cases L with
  | nil => rw [mul_nil, one_nil, hF, compose_nil]; exact hlog.1
  | cons x L =>
    have hd : d x (F 1 * M) = 0 := by
      have h0 := hH 0
      simp only [Nat.cast_zero, zero_add, one_mul] at h0
      rw [d_mul, hF, d_compose, ← hF]
      calc F 2 * d x M * M + F 1 * d x M = (F 2 * M + F 1) * d x M := by ring
        _ = 0 := by rw [h0, zero_mul]
    exact congrFun hd L

theorem d_log (M : Shuffle α ℝ) (h : M [] ≠ 0) (x : α) : M * d x (compose (fun n => logDeriv n (M [])) M 0) = d x M := by
  rw [d_compose, ← mul_assoc, mul_comm M, compose_log_mul M h, one_mul]

theorem compose_const (e : ℝ) (g : Shuffle α ℝ) (n : ℕ) : compose (fun _ => e) g n = compose (fun _ => e) g 0 := by
  induction n with
  | zero => rfl
  | succ n ih =>
    rw [← ih]
    exact compose_unique (fun _ => e) g (fun n => compose (fun _ => e) g (n + 1)) (fun _ => rfl) (fun n x => d_compose _ _ _ _) n

end logexp

theorem hasDerivAt_logDeriv (n : ℕ) (x : ℝ) (hx : x ≠ 0) : HasDerivAt (logDeriv n) (logDeriv (n + 1) x) x := by
  cases n with
  | zero =>
    have h : HasDerivAt Real.log x⁻¹ x := Real.hasDerivAt_log hx
    have e : logDeriv 0 = Real.log := by funext y; rfl
    rw [e]
    simpa [logDeriv] using h
  | succ n =>
    have h1 := (hasDerivAt_pow (n + 1) x).inv (pow_ne_zero _ hx)
    have h2 := h1.const_mul ((-1) ^ n * (n.factorial : ℝ))
    have e : logDeriv (n + 1) = fun y => (-1) ^ n * (n.factorial : ℝ) * ((fun y => y ^ (n + 1))⁻¹ y) := by
      funext y; simp [logDeriv, div_eq_mul_inv]
    rw [e]
    refine h2.congr_deriv ?_
    simp only [logDeriv, Nat.factorial_succ]
    push_cast
    field_simp
    try ring

/-! ### C39 -/

/-- C39. The coefficients in the two transformations are the derivatives of logarithm and exponential function. -/
theorem C39_derivatives (n : ℕ) (x : ℝ) (hx : x ≠ 0) :
    iteratedDeriv n Real.log x = logDeriv n x ∧ iteratedDeriv n Real.exp x = expDeriv n x := by
  constructor
  · induction n generalizing x with
    | zero => simp [logDeriv]
    | succ n ih =>
      rw [iteratedDeriv_succ]
      have : iteratedDeriv n Real.log =ᶠ[nhds x] fun y => logDeriv n y := by
        filter_upwards [isOpen_ne.mem_nhds hx] with y hy
        exact ih y hy
      rw [this.deriv_eq]
      exact (hasDerivAt_logDeriv n x hx).deriv
  · simp [expDeriv, iteratedDeriv_eq_iterate, Real.iter_deriv_exp]

/-- C39. Cumulants computed from raw moments, inserted into the formula for moments, give back the moments: for every
dimension, index and every family of moments with positive density. -/
theorem C39_moment_of_cumulants (m : (Fin D → ℕ) → ℝ) (hm : 0 < m 0) (index : Fin D → ℕ) :
    rawMomentOfCumulants index (fun i => cumulantOfRawMoments i m) = m index := by
  have hc0 : cumulantOfRawMoments 0 m = Real.log (m 0) := by
    rw [cumulantOfRawMoments, partitionTransform, if_pos partitionList_zero]; rfl
  set C := compose (fun n => logDeriv n (wordFun m [])) (wordFun m) 0 with hC
  rw [rawMomentOfCumulants, transform_eq,
    partSum_congr _ (fun _ => m 0) _ (fun b => C b.reverse) (partitionList index), partSum_eq]
  · have hM : ∀ n, wordFun m = compose (fun _ => m 0) C n := by
      intro n
      refine compose_unique (fun _ => m 0) C (fun _ => wordFun m) (fun _ => rfl) (fun _ x => ?_) n
      exact (d_log (wordFun m) (by simpa using hm.ne') x).symm
    have : rev (fun b => C b.reverse) = C := by
      apply ext'; intro W; rw [rev]; rw [List.reverse_reverse]
    rw [this, ← hM 0]
    show m (blockIndex (partitionList index).reverse) = m index
    rw [blockIndex_perm (List.reverse_perm _), blockIndex_partitionList]
  · intro n
    rw [hc0]
    exact Real.exp_log hm
  · intro b hb
    rw [cumulantOfRawMoments, transform_compose, partitionList_blockIndex b ((partitionList_sorted index).sublist hb)]
    rfl

/-- C39. Moments computed from cumulants, inserted into the formula for cumulants, give back the cumulants. -/
theorem C39_cumulant_of_moments (c : (Fin D → ℕ) → ℝ) (index : Fin D → ℕ) :
    cumulantOfRawMoments index (fun i => rawMomentOfCumulants i c) = c index := by
  have hm0 : rawMomentOfCumulants 0 c = Real.exp (c 0) := by
    rw [rawMomentOfCumulants, partitionTransform, if_pos partitionList_zero]; rfl
  set E := compose (fun _ => Real.exp (c 0)) (wordFun c) 0 with hE
  have hEd : ∀ x, d x E = E * d x (wordFun c) := by
    intro x; rw [hE, d_compose, compose_const]
  rw [cumulantOfRawMoments, transform_eq,
    partSum_congr _ (fun n => logDeriv n (E [])) _ (fun b => E b.reverse) (partitionList index), partSum_eq]
  · have hCd : compose (fun n => logDeriv n (E [])) E 0 = wordFun c := by
      have hne : E [] ≠ 0 := (Real.exp_pos (c 0)).ne'
      apply ext'
      intro L
      cases L with
      | nil => exact Real.log_exp (c 0)
      | cons x L =>
        have : d x (compose (fun n => logDeriv n (E [])) E 0) = d x (wordFun c) := by
          rw [d_compose, hEd, ← mul_assoc, compose_log_mul E hne, one_mul]
        exact congrFun this L
    have : rev (fun b => E b.reverse) = E := by
      apply ext'; intro W; rw [rev]; rw [List.reverse_reverse]
    rw [this, hCd]
    show c (blockIndex (partitionList index).reverse) = c index
    rw [blockIndex_perm (List.reverse_perm _), blockIndex_partitionList]
  · intro n
    rw [hm0]; rfl
  · intro b hb
    rw [rawMomentOfCumulants, transform_compose, partitionList_blockIndex b ((partitionList_sorted index).sublist hb)]
    rfl

/-- C39. The same for central moments, whose first-order values are not used: both compositions are the identity except
for first-order indices, where they give 0. -/
theorem C39_central (m : (Fin D → ℕ) → ℝ) (index : Fin D → ℕ) :
    (0 < m 0 → centralMomentOfCumulants index (fun i => cumulantOfCentralMoments i m) =
      if IsFirstOrder index then 0 else m index) ∧
    (cumulantOfCentralMoments index (fun i => centralMomentOfCumulants i m) =
      if IsFirstOrder index then 0 else m index) := by
  have hz : ∀ v : (Fin D → ℕ) → ℝ, centralize true v 0 = v 0 := by
    intro v
    have : ¬ IsFirstOrder (0 : Fin D → ℕ) := by
      rintro ⟨i, h⟩
      have := congrFun h i
      simp at this
    simp [centralize, this]
  have hsingle : ∀ (outer : ℕ → ℝ → ℝ) (v : (Fin D → ℕ) → ℝ) (i : Fin D → ℕ), IsFirstOrder i →
      partitionTransform outer false i (centralize true v) = 0 := by
    rintro outer v i ⟨j, rfl⟩
    have hl : partitionList (Pi.single j 1 : Fin D → ℕ) = [j] := by
      have : (Pi.single j 1 : Fin D → ℕ) = blockIndex [j] := by
        funext k
        by_cases h : j = k
        · subst h; simp [blockIndex]
        · have h' : ¬ k = j := fun e => h e.symm
          simp [blockIndex, h, h']
      rw [this]
      exact partitionList_blockIndex [j] (List.pairwise_singleton _ _)
    rw [transform_eq, hl]
    have hb : blockIndex [j] = (Pi.single j 1 : Fin D → ℕ) := by rw [← hl, blockIndex_partitionList]
    have : centralize true v (blockIndex [j]) = 0 := by
      rw [hb]; simp only [centralize]; rw [if_pos ⟨trivial, ⟨j, rfl⟩⟩]
    simp [partSum, parts, insertEach, this]
  have hcent : ∀ (outer : ℕ → ℝ → ℝ) (v : (Fin D → ℕ) → ℝ),
      centralize true (fun i => partitionTransform outer true i v) =
        fun i => partitionTransform outer false i (centralize true v) := by
    intro outer v
    funext i
    by_cases h : IsFirstOrder i
    · rw [hsingle outer v i h]; simp [centralize, h]
    · simp only [centralize, h, and_false, if_false]
      exact transform_centralized outer i v
  constructor
  · intro hm
    rw [centralMomentOfCumulants, transform_centralized]
    unfold cumulantOfCentralMoments
    rw [hcent]
    have := C39_moment_of_cumulants (centralize true m) (by rw [hz]; exact hm) index
    rw [rawMomentOfCumulants] at this
    unfold cumulantOfRawMoments at this
    rw [this]
    simp [centralize]
  · rw [cumulantOfCentralMoments, transform_centralized]
    unfold centralMomentOfCumulants
    rw [hcent]
    have := C39_cumulant_of_moments (centralize true m) index
    rw [cumulantOfRawMoments] at this
    unfold rawMomentOfCumulants at this
    rw [this]
    simp [centralize]

/-! ### Moments of populations -/

/-- moment of the populations about `u` -/
noncomputable def Spec.momentAbout (S : Stencil D) (f : Fin S.Q → ℝ) (u : Fin D → ℝ) (index : Fin D → ℕ) : ℝ :=
  ∑ q, f q * ∏ i, ((S.c q i : ℝ) - u i) ^ index i

/-- product of the components along a word -/
def chr (v : Fin D → ℝ) : Shuffle (Fin D) ℝ := fun W => (W.map v).prod

theorem d_chr (v : Fin D → ℝ) (x : Fin D) (W : List (Fin D)) : d x (chr v) W = v x * chr v W := by
  simp [d, chr]

theorem prod_blockIndex (v : Fin D → ℝ) (W : List (Fin D)) : ∏ i, v i ^ blockIndex W i = chr v W := by
  induction W with
  | nil => simp [chr, blockIndex]
  | cons x W ih =>
    have : ∀ i, v i ^ blockIndex (x :: W) i = v i ^ blockIndex W i * (if x = i then v i else 1) := by
      intro i
      by_cases h : x = i
      · subst h; simp [blockIndex, pow_succ]
      · simp [blockIndex, h]
    rw [Finset.prod_congr rfl fun i _ => this i, Finset.prod_mul_distrib, ih]
    simp [chr, mul_comm]

/-- a constant of the shuffle ring -/
def cst (a : ℝ) : Shuffle (Fin D) ℝ := fun W => if W = [] then a else 0

theorem cst_mul (a : ℝ) (b : Shuffle (Fin D) ℝ) (W : List (Fin D)) : ((cst a : Shuffle (Fin D) ℝ) * b) W = a * b W := by
  induction W generalizing b with
  | nil => rw [mul_nil]; rfl
  | cons x W ih =>
    have h0 : d x (cst a : Shuffle (Fin D) ℝ) = 0 := by
      apply ext'; intro L; simp [d, cst]
    rw [mul_cons, h0, zero_mul, ih]
    simp only [d]
    exact zero_add _

theorem d_chr' (v : Fin D → ℝ) (x : Fin D) : d x (chr v) = cst (v x) * chr v := by
  apply ext'; intro W; rw [d_chr, cst_mul]

theorem cst_add (a b : ℝ) : (cst a + cst b : Shuffle (Fin D) ℝ) = cst (a + b) := by
  apply ext'; intro W
  rw [Shuffle.add_apply]
  by_cases h : W = [] <;> simp [cst, h]

theorem chr_mul (v w : Fin D → ℝ) : chr v * chr w = chr (fun i => v i + w i) := by
  apply ext'
  intro W
  induction W with
  | nil => simp [mul_nil, chr]
  | cons x W ih =>
    have h : d x (chr v * chr w) = cst (v x + w x) * (chr v * chr w) := by
      rw [d_mul, d_chr', d_chr', ← cst_add]; ring
    have h1 : (chr v * chr w) (x :: W) = d x (chr v * chr w) W := rfl
    rw [h1, h, cst_mul, ih]
    simp [chr]

theorem wordFun_momentAbout (S : Stencil D) (f : Fin S.Q → ℝ) (u : Fin D → ℝ) :
    wordFun (Spec.momentAbout S f u) = ∑ q, cst (f q) * chr (fun i => (S.c q i : ℝ) - u i) := by
  apply ext'
  intro W
  have hs : ∀ (s : Finset (Fin S.Q)) (a : Fin S.Q → Shuffle (Fin D) ℝ), (∑ q ∈ s, a q) W = ∑ q ∈ s, a q W := by
    intro s a
    classical
    induction s using Finset.induction_on with
    | empty => simp
    | insert x s hx ih => rw [Finset.sum_insert hx, Finset.sum_insert hx, Shuffle.add_apply, ih]
  rw [hs]
  show Spec.momentAbout S f u (blockIndex W) = _
  unfold Spec.momentAbout
  refine Finset.sum_congr rfl fun q _ => ?_
  rw [cst_mul, prod_blockIndex (fun i => (S.c q i : ℝ) - u i)]

theorem momentAbout_shift (S : Stencil D) (f : Fin S.Q → ℝ) (u : Fin D → ℝ) :
    wordFun (Spec.momentAbout S f u) = wordFun (Spec.momentAbout S f 0) * chr (fun i => -u i) := by
  rw [wordFun_momentAbout, wordFun_momentAbout, Finset.sum_mul]
  refine Finset.sum_congr rfl fun q _ => ?_
  rw [mul_assoc, chr_mul]
  simp [sub_eq_add_neg]

/-- derivative of the logarithm of a shifted family -/
theorem d_log_shift (M : Shuffle (Fin D) ℝ) (h : M [] ≠ 0) (v : Fin D → ℝ) (x : Fin D) :
    d x (compose (fun n => logDeriv n ((M * chr v) [])) (M * chr v) 0) =
      d x (compose (fun n => logDeriv n (M [])) M 0) + cst (v x) := by
  have hne : (M * chr v) [] ≠ 0 := by rw [mul_nil]; simpa [chr] using h
  have h1 := compose_log_mul M h
  have h2 := compose_log_mul (M * chr v) hne
  set A := compose (fun n => logDeriv n (M [])) M 1
  set B := compose (fun n => logDeriv n ((M * chr v) [])) (M * chr v) 1
  rw [d_compose, d_compose]
  show B * d x (M * chr v) = A * d x M + cst (v x)
  rw [d_mul, d_chr']
  have hB : B * chr v = A := by
    calc B * chr v = B * chr v * (A * M) := by rw [h1, mul_one]
      _ = A * (B * (M * chr v)) := by ring
      _ = A := by rw [h2, mul_one]
  calc B * (d x M * chr v + M * (cst (v x) * chr v))
      = (B * chr v) * d x M + cst (v x) * (B * (M * chr v)) := by ring
    _ = A * d x M + cst (v x) := by rw [hB, h2, mul_one]

theorem compose_shift (M : Shuffle (Fin D) ℝ) (h : M [] ≠ 0) (v : Fin D → ℝ) (W : List (Fin D)) (hW : 2 ≤ W.length) :
    compose (fun n => logDeriv n ((M * chr v) [])) (M * chr v) 0 W = compose (fun n => logDeriv n (M [])) M 0 W := by
  match W, hW with
  | x :: y :: W, _ =>
    have := congrFun (d_log_shift M h v x) (y :: W)
    rw [Shuffle.add_apply] at this
    simpa [d, cst] using this

/-- C39. Cumulants of order two and higher do not depend on the point about which the moments are taken: the cumulants
computed from the central moments about the mean velocity equal those computed from the raw moments. -/
theorem C39_central_equals_raw (S : Stencil D) (f : Fin S.Q → ℝ) (u : Fin D → ℝ) (hρ : ∑ q, f q ≠ 0)
    (hu : ∀ i, (∑ q, f q) * u i = ∑ q, f q * (S.c q i : ℝ)) (index : Fin D → ℕ) (h2 : 2 ≤ ∑ i, index i) :
    cumulantOfCentralMoments index (Spec.momentAbout S f u) = cumulantOfRawMoments index (Spec.momentAbout S f 0) := by
  have hfirst : centralize true (Spec.momentAbout S f u) = Spec.momentAbout S f u := by
    funext j
    unfold centralize
    split
    · rename_i h
      obtain ⟨i, rfl⟩ := h.2
      have hp : ∀ q, ∏ k, ((S.c q k : ℝ) - u k) ^ (Pi.single i 1 : Fin D → ℕ) k = (S.c q i : ℝ) - u i := by
        intro q
        rw [Finset.prod_eq_single i]
        · simp
        · intro k _ hk; simp [hk]
        · simp
      unfold Spec.momentAbout
      rw [Finset.sum_congr rfl fun q _ => by rw [hp q, mul_sub], Finset.sum_sub_distrib, ← hu i, Finset.sum_mul, sub_self]
    · rfl
  have h0 : ∀ u, Spec.momentAbout S f u 0 = ∑ q, f q := by intro u; simp [Spec.momentAbout]
  rw [cumulantOfCentralMoments, transform_centralized, hfirst, cumulantOfRawMoments, transform_compose, transform_compose]
  have := compose_shift (wordFun (Spec.momentAbout S f 0)) (by rw [wordFun_nil, h0]; exact hρ) (fun i => -u i)
    (partitionList index).reverse (by
      rw [List.length_reverse, partitionList, List.length_flatMap]
      simp only [List.length_replicate]
      rwa [← List.ofFn_eq_map, List.sum_ofFn])
  rw [← momentAbout_shift] at this
  exact this

/-! ### The generating function -/

/-- `a` is differentiated by appending a letter, for words up to a length -/
def Compat (A : Set (Fin D → ℝ)) (k : ℕ) (a : (Fin D → ℝ) → Shuffle (Fin D) ℝ) : Prop :=
  ∀ W : List (Fin D), W.length ≤ k → ∀ xi ∈ A, ∀ i,
    HasDerivAt (fun t => a (Function.update xi i t) W) (a xi (W ++ [i])) (xi i)

theorem Compat.d {A : Set (Fin D → ℝ)} {k : ℕ} {a : (Fin D → ℝ) → Shuffle (Fin D) ℝ} (h : Compat A (k + 1) a) (x : Fin D) :
    Compat A k fun xi => d x (a xi) := fun W hW xi hx i => h (x :: W) (by simpa using hW) xi hx i

theorem Compat.mono {A : Set (Fin D → ℝ)} {k k' : ℕ} {a : (Fin D → ℝ) → Shuffle (Fin D) ℝ} (h : Compat A k a) (hk : k' ≤ k) :
    Compat A k' a := fun W hW xi hx i => h W (by omega) xi hx i

theorem Compat.mul {A : Set (Fin D → ℝ)} {k : ℕ} {a b : (Fin D → ℝ) → Shuffle (Fin D) ℝ} (ha : Compat A k a)
    (hb : Compat A k b) : Compat A k fun xi => a xi * b xi := by
  intro W hW xi hx i
  induction W generalizing a b k with
  | nil =>
    have h1 := ha [] hW xi hx i
    have h2 := hb [] hW xi hx i
    have h3 := h1.mul h2
    simp only [mul_nil, List.nil_append, mul_cons, Shuffle.d]
    simp only [Function.update_eq_self, List.nil_append] at h3
    exact h3
  | cons x W ih =>
    simp only [List.length_cons] at hW
    obtain ⟨j, rfl⟩ : ∃ j, k = j + 1 := ⟨k - 1, by omega⟩
    have h1 := ih (ha.d x) (hb.mono (Nat.le_succ j)) (by omega)
    have h2 := ih (ha.mono (Nat.le_succ j)) (hb.d x) (by omega)
    simp only [List.cons_append, mul_cons]
    exact h1.add h2

theorem Compat.compose {A : Set (Fin D → ℝ)} {g : (Fin D → ℝ) → Shuffle (Fin D) ℝ} (hg : ∀ k, Compat A k g)
    (hA : ∀ xi ∈ A, g xi [] ≠ 0) (k : ℕ) :
    ∀ n, Compat A k fun xi => compose (fun n => logDeriv n (g xi [])) (g xi) n := by
  have base : ∀ n, ∀ xi ∈ A, ∀ i, HasDerivAt (fun t => logDeriv n (g (Function.update xi i t) []))
      (logDeriv (n + 1) (g xi []) * g xi [i]) (xi i) := by
    intro n xi hx i
    have h1 := hg 0 [] le_rfl xi hx i
    simp only [List.nil_append] at h1
    have h2 := hasDerivAt_logDeriv n (g xi []) (hA xi hx)
    have h2' : HasDerivAt (logDeriv n) (logDeriv (n + 1) (g xi [])) (g (Function.update xi i (xi i)) []) := by
      rw [Function.update_eq_self]; exact h2
    exact h2'.comp (xi i) h1
  have step : ∀ (n : ℕ) (xi : Fin D → ℝ) (x : Fin D) (W : List (Fin D)),
      Shuffle.compose (fun n => logDeriv n (g xi [])) (g xi) n (x :: W) =
        (Shuffle.compose (fun n => logDeriv n (g xi [])) (g xi) (n + 1) * Shuffle.d x (g xi)) W := by
    intro n xi x W; rw [← d_compose]; rfl
  induction k with
  | zero =>
    intro n W hW xi hx i
    obtain rfl : W = [] := List.length_eq_zero_iff.mp (by omega)
    have := base n xi hx i
    simp only [compose_nil, List.nil_append, step, mul_nil, Shuffle.d]
    exact this
  | succ k ih =>
    intro n W hW xi hx i
    cases W with
    | nil =>
      have := base n xi hx i
      simp only [compose_nil, List.nil_append, step, mul_nil, Shuffle.d]
      exact this
    | cons x W =>
      have := ((ih (n + 1)).mul ((hg (k + 1)).d x)) W (by simpa using hW) xi hx i
      simp only [List.cons_append, step]
      exact this

/-- moments weighted with the exponential factor of the Laplace transform -/
noncomputable def laplaceMoment (S : Stencil D) (f : Fin S.Q → ℝ) (xi : Fin D → ℝ) : Shuffle (Fin D) ℝ :=
  fun W => ∑ q, f q * Real.exp (∑ i, xi i * (S.c q i : ℝ)) * chr (fun i => (S.c q i : ℝ)) W

theorem laplaceMoment_nil (S : Stencil D) (f : Fin S.Q → ℝ) (xi : Fin D → ℝ) :
    laplaceMoment S f xi [] = laplaceTransformation S f xi := by
  unfold laplaceMoment laplaceTransformation
  rw [← List.ofFn_eq_map, List.sum_ofFn]
  refine Finset.sum_congr rfl fun q _ => ?_
  rw [← List.ofFn_eq_map, List.sum_ofFn]
  simp [chr]

theorem laplaceMoment_zero (S : Stencil D) (f : Fin S.Q → ℝ) :
    laplaceMoment S f 0 = wordFun (Spec.momentAbout S f 0) := by
  apply ext'
  intro W
  show _ = Spec.momentAbout S f 0 (blockIndex W)
  unfold laplaceMoment Spec.momentAbout
  refine Finset.sum_congr rfl fun q _ => ?_
  rw [← prod_blockIndex]
  simp

theorem laplaceMoment_compat (S : Stencil D) (f : Fin S.Q → ℝ) (A : Set (Fin D → ℝ)) (k : ℕ) :
    Compat A k (laplaceMoment S f) := by
  intro W _ xi _ i
  unfold laplaceMoment
  have hq : ∀ q ∈ Finset.univ, HasDerivAt
      (fun t => f q * Real.exp (∑ j, Function.update xi i t j * (S.c q j : ℝ)) * chr (fun j => (S.c q j : ℝ)) W)
      (f q * Real.exp (∑ j, xi j * (S.c q j : ℝ)) * chr (fun j => (S.c q j : ℝ)) (W ++ [i])) (xi i) := by
    intro q _
    have hlin : ∀ t, ∑ j, Function.update xi i t j * (S.c q j : ℝ) =
        (t - xi i) * (S.c q i : ℝ) + ∑ j, xi j * (S.c q j : ℝ) := by
      intro t
      rw [← Finset.add_sum_erase _ _ (Finset.mem_univ i), ← Finset.add_sum_erase _ (fun j => xi j * (S.c q j : ℝ)) (Finset.mem_univ i),
        Function.update_self, Finset.sum_congr rfl fun j hj => by
          rw [Function.update_of_ne (Finset.ne_of_mem_erase hj)]]
      ring
    simp only [hlin]
    have h1 : HasDerivAt (fun t : ℝ => (t - xi i) * (S.c q i : ℝ) + ∑ j, xi j * (S.c q j : ℝ)) (S.c q i : ℝ) (xi i) := by
      have := (((hasDerivAt_id (xi i)).sub_const (xi i)).mul_const (S.c q i : ℝ)).add_const (∑ j, xi j * (S.c q j : ℝ))
      simpa using this
    have h2 := ((h1.exp.const_mul (f q)).mul_const (chr (fun j => (S.c q j : ℝ)) W))
    refine h2.congr_deriv ?_
    simp [chr]
    ring
  exact HasDerivAt.fun_sum hq

/-- repeated partial derivatives of the generating function where the logarithm is defined -/
theorem foldl_partialDiff (S : Stencil D) (f : Fin S.Q → ℝ) (L : List (Fin D)) :
    ∀ (W : List (Fin D)) (g : (Fin D → ℝ) → ℝ),
      (∀ xi, laplaceTransformation S f xi ≠ 0 → g xi =
        compose (fun n => logDeriv n (laplaceMoment S f xi [])) (laplaceMoment S f xi) 0 W) →
      ∀ xi, laplaceTransformation S f xi ≠ 0 → L.foldl (fun g i => partialDiff i g) g xi =
        compose (fun n => logDeriv n (laplaceMoment S f xi [])) (laplaceMoment S f xi) 0 (W ++ L) := by
  induction L with
  | nil => intro W g hg xi hx; simpa using hg xi hx
  | cons i L ih =>
    intro W g hg xi hx
    rw [List.foldl_cons, ih (W ++ [i]) (partialDiff i g) ?_ xi hx, List.append_assoc]
    · rfl
    · intro xi hx
      have hc := Compat.compose (A := {xi | laplaceTransformation S f xi ≠ 0}) (laplaceMoment_compat S f _)
        (fun xi h => by rw [laplaceMoment_nil]; exact h) W.length 0 W le_rfl xi hx i
      have hZ := laplaceMoment_compat S f Set.univ 0 [] le_rfl xi trivial i
      simp only [laplaceMoment_nil] at hZ
      have hev : ∀ᶠ t in nhds (xi i), laplaceTransformation S f (Function.update xi i t) ≠ 0 :=
        hZ.continuousAt.eventually_ne (by rw [Function.update_eq_self]; exact hx)
      have heq : (fun t => g (Function.update xi i t)) =ᶠ[nhds (xi i)] fun t =>
          compose (fun n => logDeriv n (laplaceMoment S f (Function.update xi i t) []))
            (laplaceMoment S f (Function.update xi i t)) 0 W := by
        filter_upwards [hev] with t ht
        exact hg _ ht
      exact (heq.deriv_eq).trans hc.deriv

/-- C39. The cumulant obtained by differentiating the generating function of the populations equals the cumulant
computed from their raw moments by the sum over set partitions, for every stencil, index and all populations with
non-zero density. -/
theorem C39_generating_function (S : Stencil D) (f : Fin S.Q → ℝ) (hρ : ∑ q, f q ≠ 0) (index : Fin D → ℕ) :
    discreteCumulant S f index = cumulantOfRawMoments index (Spec.momentAbout S f 0) := by
  have h0 : laplaceTransformation S f 0 = ∑ q, f q := by
    rw [← laplaceMoment_nil, laplaceMoment_zero]; simp [Spec.momentAbout]
  rw [discreteCumulant, multiDifferentiation, foldl_partialDiff S f (partitionList index) [] _ ?_ 0 (by rw [h0]; exact hρ),
    cumulantOfRawMoments, transform_compose, laplaceMoment_zero, List.nil_append]
  · exact Sym.compose (wordFun_sym _) _ _ 0 _ _ (List.reverse_perm _).symm le_rfl
  · intro xi _
    rw [compose_nil, laplaceMoment_nil]
    rfl

/-! ### Examples -/

private theorem partitionList_example : partitionList (![1, 1] : Fin 2 → ℕ) = [0, 1] := by decide

/-- the familiar covariance formula -/
example (m : (Fin 2 → ℕ) → ℝ) : cumulantOfRawMoments ![1, 1] m =
    m ![1, 1] / m 0 - m ![1, 0] * m ![0, 1] / m 0 ^ 2 := by
  have h1 : blockIndex ([0, 1] : List (Fin 2)) = ![1, 1] := by decide
  have h2 : blockIndex ([0] : List (Fin 2)) = ![1, 0] := by decide
  have h3 : blockIndex ([1] : List (Fin 2)) = ![0, 1] := by decide
  rw [cumulantOfRawMoments, transform_eq, partitionList_example]
  simp [partSum, parts, insertEach, h1, h2, h3, logDeriv]
  ring

/-- positive density, with first-order moments -/
example : (0 : ℝ) < (fun i : Fin 2 → ℕ => if i = 0 then (2 : ℝ) else 1) 0 ∧
    ¬ IsFirstOrder (![1, 1] : Fin 2 → ℕ) := by
  constructor
  · norm_num
  · decide

/-- populations with momentum in one dimension, velocity 1/4 -/
example : let S : Stencil 1 := ⟨3, ![![0], ![1], ![-1]]⟩
    let f : Fin S.Q → ℝ := ![1, 2, 1]
    let u : Fin 1 → ℝ := ![1 / 4]
    (∑ q, f q) ≠ 0 ∧ (∀ i, (∑ q, f q) * u i = ∑ q, f q * (S.c q i : ℝ)) ∧ u ≠ 0 ∧
      2 ≤ ∑ i, (![3] : Fin 1 → ℕ) i := by
  intro S f u
  have hQ : S.Q = 3 := rfl
  have e0 : f ⟨0, by decide⟩ = 1 := rfl
  have e1 : f ⟨1, by decide⟩ = 2 := rfl
  have e2 : f ⟨2, by decide⟩ = 1 := rfl
  have hs : ∀ h : Fin S.Q → ℝ, ∑ q, h q = h ⟨0, by decide⟩ + h ⟨1, by decide⟩ + h ⟨2, by decide⟩ := fun h =>
    Fin.sum_univ_three (f := (h : Fin 3 → ℝ))
  have c0 : ∀ i, S.c ⟨0, by decide⟩ i = 0 := by decide
  have c1 : ∀ i, S.c ⟨1, by decide⟩ i = 1 := by decide
  have c2 : ∀ i, S.c ⟨2, by decide⟩ i = -1 := by decide
  refine ⟨?_, ?_, ?_, by decide⟩
  · rw [hs, e0, e1, e2]; norm_num
  · intro i
    rw [hs, hs, e0, e1, e2, c0, c1, c2]
    have : u i = 1 / 4 := by fin_cases i; rfl
    rw [this]; norm_num
  · intro h
    have := congrFun h 0
    norm_num [u] at this


end Lbm
