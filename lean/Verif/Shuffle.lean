/-
Functions on words with the shuffle product: the ring of exponential generating functions, in which the shift by a letter
is a derivation. Used to prove the partition formulas of `cumulants.py`; not itself a model of code.
-/
import Mathlib.Algebra.Ring.Basic
import Mathlib.Algebra.BigOperators.Group.List.Basic
import Mathlib.Tactic.Ring
import Mathlib.Tactic.Abel

namespace Lbm

variable {α : Type} {K : Type} [CommRing K]

/-- functions on words -/
def Shuffle (α K : Type) := List α → K

namespace Shuffle

instance : AddCommGroup (Shuffle α K) := inferInstanceAs (AddCommGroup (List α → K))

/-- shift by a letter -/
def d (x : α) (a : Shuffle α K) : Shuffle α K := fun L => a (x :: L)

/-- shuffle product -/
def sh : List α → Shuffle α K → Shuffle α K → K
  | [], a, b => a [] * b []
  | x :: L, a, b => sh L (d x a) b + sh L a (d x b)

instance : Mul (Shuffle α K) := ⟨fun a b L => sh L a b⟩

/-- 1 on the empty word -/
instance : One (Shuffle α K) := ⟨fun L => if L.isEmpty then 1 else 0⟩

theorem ext' {a b : Shuffle α K} (h : ∀ L, a L = b L) : a = b := funext h

@[simp] theorem add_apply (a b : Shuffle α K) (L : List α) : (a + b) L = a L + b L := rfl
@[simp] theorem sub_apply (a b : Shuffle α K) (L : List α) : (a - b) L = a L - b L := rfl
@[simp] theorem neg_apply (a : Shuffle α K) (L : List α) : (-a) L = -a L := rfl
@[simp] theorem zero_apply (L : List α) : (0 : Shuffle α K) L = 0 := rfl
@[simp] theorem mul_nil (a b : Shuffle α K) : (a * b) [] = a [] * b [] := rfl
theorem mul_cons (a b : Shuffle α K) (x : α) (L : List α) : (a * b) (x :: L) = (d x a * b) L + (a * d x b) L := rfl
@[simp] theorem one_nil : (1 : Shuffle α K) [] = 1 := rfl
@[simp] theorem one_cons (x : α) (L : List α) : (1 : Shuffle α K) (x :: L) = 0 := rfl
@[simp] theorem d_apply (x : α) (a : Shuffle α K) (L : List α) : d x a L = a (x :: L) := rfl
@[simp] theorem d_add (x : α) (a b : Shuffle α K) : d x (a + b) = d x a + d x b := rfl
@[simp] theorem d_sub (x : α) (a b : Shuffle α K) : d x (a - b) = d x a - d x b := rfl
@[simp] theorem d_neg (x : α) (a : Shuffle α K) : d x (-a) = -d x a := rfl
@[simp] theorem d_zero (x : α) : d x (0 : Shuffle α K) = 0 := rfl
@[simp] theorem d_one (x : α) : d x (1 : Shuffle α K) = 0 := rfl
/-- Leibniz rule -/
@[simp] theorem d_mul (x : α) (a b : Shuffle α K) : d x (a * b) = d x a * b + a * d x b := rfl

theorem mul_comm' (a b : Shuffle α K) : a * b = b * a := by
  apply ext'
  intro L
  induction L generalizing a b with
  | nil => simp [mul_comm]
  | cons x L ih => rw [mul_cons, mul_cons, ih, ih a, add_comm]

theorem add_mul' (a b c : Shuffle α K) : (a + b) * c = a * c + b * c := by
  apply ext'
  intro L
  induction L generalizing a b c with
  | nil => simp [add_mul]
  | cons x L ih => simp only [mul_cons, add_apply, d_add, ih]; ring

theorem mul_assoc' (a b c : Shuffle α K) : a * b * c = a * (b * c) := by
  apply ext'
  intro L
  induction L generalizing a b c with
  | nil => simp [mul_assoc]
  | cons x L ih =>
    rw [mul_cons, mul_cons, d_mul, d_mul, add_mul', mul_comm' a (d x b * c + b * d x c), add_mul', add_apply, add_apply,
      ih, ih, ih, mul_comm' (d x b * c) a, mul_comm' (b * d x c) a]
    ring

theorem zero_mul' (a : Shuffle α K) : 0 * a = 0 := by
  apply ext'
  intro L
  induction L generalizing a with
  | nil => simp
  | cons x L ih => rw [mul_cons, d_zero, ih, ih]; simp

theorem one_mul' (a : Shuffle α K) : 1 * a = a := by
  apply ext'
  intro L
  induction L generalizing a with
  | nil => simp
  | cons x L ih => rw [mul_cons, d_one, zero_mul', ih]; simp

instance : CommRing (Shuffle α K) :=
  { (inferInstance : AddCommGroup (Shuffle α K)) with
    mul := (· * ·)
    one := 1
    left_distrib := fun a b c => by rw [mul_comm', add_mul', mul_comm' b, mul_comm' c]
    right_distrib := add_mul'
    zero_mul := zero_mul'
    mul_zero := fun a => by rw [mul_comm', zero_mul']
    mul_assoc := mul_assoc'
    one_mul := one_mul'
    mul_one := fun a => by rw [mul_comm', one_mul']
    mul_comm := mul_comm'
    natCast := fun n => n • (1 : Shuffle α K)
    natCast_zero := zero_nsmul _
    natCast_succ := fun n => succ_nsmul _ n
    intCast := fun n => n • (1 : Shuffle α K)
    intCast_ofNat := fun n => natCast_zsmul _ n
    intCast_negSucc := fun n => negSucc_zsmul _ n }

/-- functions of words that agree up to a length have products that agree up to that length -/
theorem mul_congr (L : List α) : ∀ (a a' b b' : Shuffle α K), (∀ W, W.length ≤ L.length → a W = a' W) →
    (∀ W, W.length ≤ L.length → b W = b' W) → (a * b) L = (a' * b') L := by
  induction L with
  | nil =>
    intro a a' b b' ha hb
    rw [mul_nil, mul_nil, ha [] le_rfl, hb [] le_rfl]
  | cons x L ih =>
    intro a a' b b' ha hb
    rw [mul_cons, mul_cons]
    congr 1
    · exact ih _ _ _ _ (fun W hW => ha (x :: W) (by simpa using hW)) (fun W hW => hb W (by simp; omega))
    · exact ih _ _ _ _ (fun W hW => ha W (by simp; omega)) (fun W hW => hb (x :: W) (by simpa using hW))

/-- shift by a word -/
def dw (W : List α) (a : Shuffle α K) : Shuffle α K := fun L => a (W ++ L)

@[simp] theorem dw_nil (a : Shuffle α K) : dw [] a = a := rfl
@[simp] theorem dw_apply_nil (W : List α) (a : Shuffle α K) : dw W a [] = a W := by simp [dw]
theorem d_dw (x : α) (W : List α) (a : Shuffle α K) : d x (dw W a) = dw (W ++ [x]) a := by
  apply ext'; intro L; simp [dw]

/-- values of sums -/
theorem sum_nil (l : List (Shuffle α K)) : l.sum [] = (l.map fun a => a []).sum := by
  induction l with
  | nil => simp
  | cons a l ih => simp [ih]

theorem prod_nil (l : List (Shuffle α K)) : l.prod [] = (l.map fun a => a []).prod := by
  induction l with
  | nil => simp
  | cons a l ih => simp [ih]

theorem d_sum (x : α) (l : List (Shuffle α K)) : d x l.sum = (l.map (d x)).sum := by
  induction l with
  | nil => simp
  | cons a l ih => simp [ih]

/-- solution of `f n [] = w n`, `d x (f n) = f (n + 1) * d x g`, with a bound for the length of words -/
def solve (w : ℕ → K) (g : Shuffle α K) : ℕ → ℕ → Shuffle α K
  | 0, n => fun _ => w n
  | k + 1, n => fun L => match L with
    | [] => w n
    | x :: L => (solve w g k (n + 1) * d x g) L

theorem solve_stable (w : ℕ → K) (g : Shuffle α K) (k : ℕ) : ∀ (k' n : ℕ) (L : List α), L.length ≤ k → L.length ≤ k' →
    solve w g k n L = solve w g k' n L := by
  induction k with
  | zero =>
    intro k' n L h _
    obtain rfl : L = [] := List.length_eq_zero_iff.mp (by omega)
    cases k' <;> rfl
  | succ k ih =>
    intro k' n L h h'
    cases L with
    | nil => cases k' <;> rfl
    | cons x L =>
      cases k' with
      | zero => simp at h'
      | succ k' =>
        simp only [List.length_cons] at h h'
        exact mul_congr L _ _ _ _ (fun W hW => ih k' (n + 1) W (by omega) (by omega)) fun _ _ => rfl

/-- the functions `f_n` of an element `g`, given by their values on the empty word -/
def compose (w : ℕ → K) (g : Shuffle α K) (n : ℕ) : Shuffle α K := fun L => solve w g L.length n L

@[simp] theorem compose_nil (w : ℕ → K) (g : Shuffle α K) (n : ℕ) : compose w g n [] = w n := rfl

theorem d_compose (w : ℕ → K) (g : Shuffle α K) (n : ℕ) (x : α) : d x (compose w g n) = compose w g (n + 1) * d x g := by
  apply ext'
  intro L
  show (solve w g L.length (n + 1) * d x g) L = _
  exact mul_congr L _ _ _ _ (fun W hW => solve_stable w g _ _ _ W hW le_rfl) fun _ _ => rfl

/-- two families with the same values on the empty word and the same derivatives agree -/
theorem compose_unique (w : ℕ → K) (g : Shuffle α K) (f : ℕ → Shuffle α K) (h0 : ∀ n, f n [] = w n)
    (hd : ∀ n x, d x (f n) = f (n + 1) * d x g) (n : ℕ) : f n = compose w g n := by
  apply ext'
  intro L
  have key : ∀ (k : ℕ) (L : List α), L.length ≤ k → ∀ n, f n L = compose w g n L := by
    intro k
    induction k with
    | zero =>
      intro L h n
      obtain rfl : L = [] := List.length_eq_zero_iff.mp (by omega)
      rw [h0, compose_nil]
    | succ k ih =>
      intro L h n
      cases L with
      | nil => rw [h0, compose_nil]
      | cons x L =>
        have h1 : f n (x :: L) = (f (n + 1) * d x g) L := by rw [← hd]; rfl
        have h2 : compose w g n (x :: L) = (compose w g (n + 1) * d x g) L := by rw [← d_compose]; rfl
        rw [h1, h2]
        simp only [List.length_cons] at h
        exact mul_congr L _ _ _ _ (fun W hW => ih W (by omega) (n + 1)) fun _ _ => rfl
  exact key L.length L le_rfl n

/-- independent of the order of the letters, for words up to a length -/
def Sym (k : ℕ) (a : Shuffle α K) : Prop := ∀ L L', L.Perm L' → L.length ≤ k → a L = a L'

theorem Sym.d {k : ℕ} {a : Shuffle α K} (h : Sym (k + 1) a) (x : α) : Sym k (d x a) :=
  fun _ _ hp hl => h _ _ (hp.cons x) (by simpa using hl)

theorem Sym.mono {k k' : ℕ} {a : Shuffle α K} (h : Sym k a) (hk : k' ≤ k) : Sym k' a := fun L L' hp hl => h L L' hp (by omega)

theorem Sym.mul {k : ℕ} {a b : Shuffle α K} (ha : Sym k a) (hb : Sym k b) : Sym k (a * b) := by
  intro L L' hp
  induction hp generalizing a b k with
  | nil => intro _; rfl
  | cons x _ ih =>
    intro hl
    simp only [List.length_cons] at hl
    obtain ⟨j, rfl⟩ : ∃ j, k = j + 1 := ⟨k - 1, by omega⟩
    rw [mul_cons, mul_cons, ih (ha.d x) (hb.mono (by omega)) (by omega), ih (ha.mono (by omega)) (hb.d x) (by omega)]
  | swap x y L =>
    intro hl
    simp only [List.length_cons] at hl
    have hsw : ∀ c : Shuffle α K, Sym k c → (∀ W, W.length ≤ L.length → Shuffle.d y (Shuffle.d x c) W =
        Shuffle.d x (Shuffle.d y c) W) := by
      intro c hc W hW
      exact hc _ _ (List.Perm.swap y x W) (by simp; omega)
    simp only [mul_cons]
    rw [mul_congr L _ _ b b (hsw a ha) fun _ _ => rfl, mul_congr L a a _ _ (fun _ _ => rfl) (hsw b hb)]
    ring
  | trans h1 _ ih1 ih2 =>
    intro hl
    rw [ih1 ha hb hl, ih2 ha hb (by rw [← h1.length_eq]; exact hl)]

theorem Sym.compose {g : Shuffle α K} (hg : ∀ k, Sym k g) (w : ℕ → K) (k : ℕ) : ∀ n, Sym k (compose w g n) := by
  induction k with
  | zero =>
    intro n L L' hp hl
    obtain rfl : L = [] := List.length_eq_zero_iff.mp (by omega)
    rw [hp.nil_eq]
  | succ k ih =>
    intro n L L' hp
    have hc : ∀ n x L, Shuffle.compose w g n (x :: L) = (Shuffle.compose w g (n + 1) * Shuffle.d x g) L := by
      intro n x L; rw [← d_compose]; rfl
    induction hp with
    | nil => intro _; rfl
    | cons x hp _ =>
      intro hl
      simp only [List.length_cons] at hl
      rw [hc, hc]
      exact ((ih (n + 1)).mul ((hg (k + 1)).d x)) _ _ hp (by omega)
    | swap x y L =>
      intro hl
      rw [hc, hc, mul_cons, mul_cons, d_compose, d_compose]
      have : Shuffle.d x (Shuffle.d y g) = Shuffle.d y (Shuffle.d x g) := by
        apply ext'
        intro W
        exact hg (W.length + 2) _ _ (List.Perm.swap x y W) (by simp)
      rw [this, show ∀ a b c : Shuffle α K, a * b * c = a * c * b from fun a b c => by ring]
    | trans h1 _ ih1 ih2 =>
      intro hl
      rw [ih1 hl, ih2 (by rw [← h1.length_eq]; exact hl)]

end Shuffle

end Lbm
