/-
C117: the domain sizes that fit into a memory.
-/
import Verif.DomainSize
import Mathlib.Tactic.Linarith
import Mathlib.Tactic.NormNum
import Mathlib.Tactic.FieldSimp
import Mathlib.Tactic.Positivity

namespace Lbm
namespace DomainSize

/-- Specification: bytes of the population arrays of a domain with `n` cells in each of `d` directions. -/
def bytes (d n pdfs arrays itemsize : ℕ) : ℕ := n ^ d * pdfs * arrays * itemsize

theorem le_root {d : ℕ} (hd : d ≠ 0) {a x : ℝ} (ha : 0 ≤ a) (hx : 0 ≤ x) : a ≤ x ^ ((1 : ℝ) / d) ↔ a ^ d ≤ x := by
  rw [one_div]
  rw [← Real.rpow_natCast a d]
  exact Real.le_rpow_inv_iff_of_pos ha hx (by positivity)

theorem root_lt {d : ℕ} (hd : d ≠ 0) {a x : ℝ} (ha : 0 ≤ a) (hx : 0 ≤ x) : x ^ ((1 : ℝ) / d) < a ↔ x < a ^ d := by
  rw [← not_le, ← not_le, le_root hd ha hx]

theorem cells_eq {pdfs arrays itemsize : ℕ} (hp : 0 < pdfs) (ha : 0 < arrays) (m : ℝ) :
    cells m pdfs arrays itemsize = .ok (m / itemsize / (pdfs * arrays : ℕ)) := by
  unfold cells
  rw [if_neg (by positivity)]

theorem bytes_le {d n pdfs arrays itemsize : ℕ} (hp : 0 < pdfs) (ha : 0 < arrays) (hi : 0 < itemsize) (m : ℝ) :
    (n : ℝ) ^ d ≤ m / itemsize / (pdfs * arrays : ℕ) ↔ (bytes d n pdfs arrays itemsize : ℝ) ≤ m := by
  have h1 : (0 : ℝ) < itemsize := by exact_mod_cast hi
  have h2 : (0 : ℝ) < (pdfs * arrays : ℕ) := by exact_mod_cast Nat.mul_pos hp ha
  rw [le_div_iff₀ h2, le_div_iff₀ h1]
  unfold bytes
  push_cast
  constructor <;> intro h <;> nlinarith [h]

/-- C117. A square of `n` cells in each direction fits into the memory exactly when `n` is at most the length that is returned. -/
theorem C117_square (m : ℝ) (hm : 0 ≤ m) (pdfs arrays itemsize : ℕ) (hp : 0 < pdfs) (ha : 0 < arrays) (hi : 0 < itemsize) :
    ∃ L, squareSize m pdfs arrays itemsize = .ok L ∧ ∀ n : ℕ, (n : ℝ) ≤ L ↔ (bytes 2 n pdfs arrays itemsize : ℝ) ≤ m := by
  refine ⟨_, by rw [squareSize, cells_eq hp ha]; rfl, fun n => ?_⟩
  rw [← bytes_le hp ha hi]
  exact_mod_cast le_root (d := 2) two_ne_zero (Nat.cast_nonneg n) (by positivity)

/-- C117. The same for cubes. -/
theorem C117_cube (m : ℝ) (hm : 0 ≤ m) (pdfs arrays itemsize : ℕ) (hp : 0 < pdfs) (ha : 0 < arrays) (hi : 0 < itemsize) :
    ∃ L, cubeSize m pdfs arrays itemsize = .ok L ∧ ∀ n : ℕ, (n : ℝ) ≤ L ↔ (bytes 3 n pdfs arrays itemsize : ℝ) ≤ m := by
  refine ⟨_, by rw [cubeSize, cells_eq hp ha]; rfl, fun n => ?_⟩
  rw [← bytes_le hp ha hi]
  exact_mod_cast le_root (d := 3) three_ne_zero (Nat.cast_nonneg n) (by positivity)

/-- C117. With `g` ghost layers on each side a domain of `n` cells fits exactly when `n` is at most the length minus twice `g`; the
functions do not count ghost layers. -/
theorem C117_ghost_layers (m : ℝ) (hm : 0 ≤ m) (pdfs arrays itemsize g : ℕ) (hp : 0 < pdfs) (ha : 0 < arrays) (hi : 0 < itemsize) :
    ∃ L, squareSize m pdfs arrays itemsize = .ok L ∧
      ∀ n : ℕ, (n : ℝ) ≤ L - 2 * g ↔ (bytes 2 (n + 2 * g) pdfs arrays itemsize : ℝ) ≤ m := by
  obtain ⟨L, hL, h⟩ := C117_square m hm pdfs arrays itemsize hp ha hi
  refine ⟨L, hL, fun n => ?_⟩
  rw [← h]
  push_cast
  exact le_sub_iff_add_le

theorem shown_eq {d : ℕ} (hd : d ≠ 0) {x : ℝ} (hx : 0 ≤ x) {t : ℕ} (ht : 0 < t) (h1 : ((2 * t - 1 : ℝ) / 20) ^ d ≤ x)
    (h2 : x < ((2 * t + 1 : ℝ) / 20) ^ d) : shown (x ^ ((1 : ℝ) / d)) = t := by
  have ht' : (1 : ℝ) ≤ t := by exact_mod_cast ht
  have a := (le_root hd (a := (2 * t - 1 : ℝ) / 20) (by linarith [ht'] : (0 : ℝ) ≤ (2 * t - 1) / 20) hx).2 h1
  have b := (root_lt hd (a := (2 * t + 1 : ℝ) / 20) (by positivity) hx).2 h2
  unfold shown
  rw [round_eq, Int.floor_eq_iff]
  push_cast
  constructor <;> linarith

/-- The row of a memory of `m` bytes. -/
noncomputable def rowOf (name : String) (size : Size) (m : ℝ) (arrays itemsize : ℕ) : Row :=
  ⟨name, size, (m / itemsize / (9 * arrays : ℕ)) ^ ((1 : ℝ) / (2 : ℕ)), (m / itemsize / (19 * arrays : ℕ)) ^ ((1 : ℝ) / (3 : ℕ)),
    (m / itemsize / (27 * arrays : ℕ)) ^ ((1 : ℝ) / (3 : ℕ))⟩

theorem overview_cons (float : List Char → Option ℝ) {name : String} {size : Size} {m : ℝ} (h : convert float size = .ok m)
    {arrays itemsize : ℕ} (ha : 0 < arrays) (rest : List (String × Size)) : overview float arrays itemsize ((name, size) :: rest) =
      (overview float arrays itemsize rest).map (rowOf name size m arrays itemsize :: ·) := by
  simp only [overview, h, squareSize, cubeSize, cells_eq (Nat.succ_pos _) ha, bind, Except.bind, pure, Except.pure]
  cases overview float arrays itemsize rest <;> simp [Except.map, rowOf]

/-- C117. The numbers in the docstring of the module (lines 10-13) are those of the functions. -/
theorem C117_docstring (float : List Char → Option ℝ) (h32 : float "32 ".toList = some 32) (h1 : float "1".toList = some 1) :
    ∃ r s, overview float 2 8 [("L1", .str "32 KB".toList), ("L3", .str "1MB".toList)] = .ok [r, s] ∧
      (shown r.d2q9, shown r.d3q19, shown r.d3q27) = (151, 48, 42) ∧
      (shown s.d2q9, shown s.d3q19, shown s.d3q27) = (853, 151, 134) := by
  have c1 : convert float (.str "32 KB".toList) = .ok (32 * 1024) := by
    have e : strip ("32 KB".toList.map Char.toLower) = "32 kb".toList := by decide +kernel
    have k : ['k', 'b'] <:+ "32 kb".toList := by decide +kernel
    have q : "32 kb".toList.take ("32 kb".toList.length - 2) = "32 ".toList := by decide +kernel
    simp only [convert, e, if_pos k, q, h32]
  have c2 : convert float (.str "1MB".toList) = .ok (1 * 1024 ^ 2) := by
    have e : strip ("1MB".toList.map Char.toLower) = "1mb".toList := by decide +kernel
    have k : ¬ ['k', 'b'] <:+ "1mb".toList := by decide +kernel
    have k' : ['m', 'b'] <:+ "1mb".toList := by decide +kernel
    have q : "1mb".toList.take ("1mb".toList.length - 2) = "1".toList := by decide +kernel
    simp only [convert, e, if_neg k, if_pos k', q, h1]
  refine ⟨rowOf "L1" (.str "32 KB".toList) (32 * 1024) 2 8, rowOf "L3" (.str "1MB".toList) (1 * 1024 ^ 2) 2 8, ?_, ?_, ?_⟩
  · rw [overview_cons _ c1 two_pos, overview_cons _ c2 two_pos]
    rfl
  · refine Prod.ext ?_ (Prod.ext ?_ ?_)
    · exact_mod_cast shown_eq (d := 2) (t := 151) two_ne_zero (by norm_num) (by norm_num) (by norm_num) (by norm_num)
    · exact_mod_cast shown_eq (d := 3) (t := 48) three_ne_zero (by norm_num) (by norm_num) (by norm_num) (by norm_num)
    · exact_mod_cast shown_eq (d := 3) (t := 42) three_ne_zero (by norm_num) (by norm_num) (by norm_num) (by norm_num)
  · refine Prod.ext ?_ (Prod.ext ?_ ?_)
    · exact_mod_cast shown_eq (d := 2) (t := 853) two_ne_zero (by norm_num) (by norm_num) (by norm_num) (by norm_num)
    · exact_mod_cast shown_eq (d := 3) (t := 151) three_ne_zero (by norm_num) (by norm_num) (by norm_num) (by norm_num)
    · exact_mod_cast shown_eq (d := 3) (t := 134) three_ne_zero (by norm_num) (by norm_num) (by norm_num) (by norm_num)

/-- C117. The number shown may be too large: with 36680 bytes the table shows 16.0, but 16 × 16 cells need 36864 bytes. -/
theorem C117_shown_too_large : ∃ L, squareSize 36680 9 2 8 = .ok L ∧ shown L = 160 ∧ bytes 2 16 9 2 8 = 36864 ∧ ¬ (16 : ℝ) ≤ L := by
  obtain ⟨L, hL, h⟩ := C117_square 36680 (by norm_num) 9 2 8 (by norm_num) (by norm_num) (by norm_num)
  refine ⟨L, hL, ?_, by decide, fun hc => ?_⟩
  · have e : squareSize 36680 9 2 8 = .ok ((36680 / (8 : ℕ) / ((9 * 2 : ℕ) : ℝ)) ^ ((1 : ℝ) / 2)) := by
      rw [squareSize, cells_eq (by norm_num) (by norm_num)]; rfl
    rw [hL] at e
    cases e
    exact_mod_cast shown_eq (d := 2) (t := 160) two_ne_zero (by norm_num) (by norm_num) (by norm_num) (by norm_num)
  · have := (h 16).1 (by exact_mod_cast hc)
    norm_num [bytes] at this

/-- C117. The number shown is never off by more than 0.05: a number of cells below it by that much fits. -/
theorem C117_shown_safe (m : ℝ) (hm : 0 ≤ m) (pdfs arrays itemsize : ℕ) (hp : 0 < pdfs) (ha : 0 < arrays) (hi : 0 < itemsize) :
    ∃ L, squareSize m pdfs arrays itemsize = .ok L ∧
      ∀ n : ℕ, 10 * (n : ℤ) < shown L → (bytes 2 n pdfs arrays itemsize : ℝ) ≤ m := by
  obtain ⟨L, hL, h⟩ := C117_square m hm pdfs arrays itemsize hp ha hi
  refine ⟨L, hL, fun n hn => (h n).1 ?_⟩
  have h1 : (10 * (n : ℝ) + 1) ≤ shown L := by exact_mod_cast hn
  have h2 := abs_le.1 (abs_sub_round (10 * L))
  unfold shown at h1
  linarith [h2.1]

/-- C117. The rows of the table: one for each memory in order, with its name and size as given, and lengths such that exactly the
squares and cubes that fit are not longer. -/
theorem C117_overview (float : List Char → Option ℝ) (arrays itemsize : ℕ) (ha : 0 < arrays) (hi : 0 < itemsize)
    (sizes : List (String × Size)) (hs : ∀ e ∈ sizes, ∃ m, convert float e.2 = .ok m ∧ 0 ≤ m) :
    ∃ rows, overview float arrays itemsize sizes = .ok rows ∧ rows.map (fun r => (r.mem, r.size)) = sizes ∧
      ∀ r ∈ rows, ∃ m, convert float r.size = .ok m ∧ ∀ n : ℕ,
        ((n : ℝ) ≤ r.d2q9 ↔ (bytes 2 n 9 arrays itemsize : ℝ) ≤ m) ∧
        ((n : ℝ) ≤ r.d3q19 ↔ (bytes 3 n 19 arrays itemsize : ℝ) ≤ m) ∧
        ((n : ℝ) ≤ r.d3q27 ↔ (bytes 3 n 27 arrays itemsize : ℝ) ≤ m) := by
  induction sizes with
  | nil => exact ⟨[], rfl, rfl, by simp⟩
  | cons e rest ih =>
    obtain ⟨name, size⟩ := e
    obtain ⟨rows, h1, h2, h3⟩ := ih fun e he => hs e (List.mem_cons_of_mem _ he)
    obtain ⟨m, hm, hm0⟩ := hs (name, size) List.mem_cons_self
    refine ⟨rowOf name size m arrays itemsize :: rows, by rw [overview_cons _ hm ha, h1]; rfl, by rw [List.map_cons, h2]; rfl, ?_⟩
    intro r hr
    rcases List.mem_cons.1 hr with rfl | hr
    · refine ⟨m, hm, fun n => ⟨?_, ?_, ?_⟩⟩
      · rw [← bytes_le (by norm_num) ha hi]
        exact le_root two_ne_zero (Nat.cast_nonneg n) (by positivity)
      · rw [← bytes_le (by norm_num) ha hi]
        exact le_root three_ne_zero (Nat.cast_nonneg n) (by positivity)
      · rw [← bytes_le (by norm_num) ha hi]
        exact le_root three_ne_zero (Nat.cast_nonneg n) (by positivity)
    · exact h3 r hr

/-- C117. One size that is not understood is the error of the whole table. -/
theorem C117_overview_error (float : List Char → Option ℝ) (arrays itemsize : ℕ) (ha : 0 < arrays) (pre rest : List (String × Size))
    (e : String × Size) (hpre : ∀ e ∈ pre, ∃ m, convert float e.2 = .ok m) (err : PyErr) (he : convert float e.2 = .error err) :
    overview float arrays itemsize (pre ++ e :: rest) = .error err := by
  induction pre with
  | nil =>
    obtain ⟨name, size⟩ := e
    simp only at he
    simp only [List.nil_append, overview, he, bind, Except.bind]
  | cons d pre ih =>
    obtain ⟨name, size⟩ := d
    obtain ⟨m, hm⟩ := hpre (name, size) List.mem_cons_self
    rw [List.cons_append, overview_cons _ hm ha, ih fun e he => hpre e (List.mem_cons_of_mem _ he)]
    rfl

theorem dropWhile_spaces (a : ℕ) (l : List Char) :
    (List.replicate a ' ' ++ l).dropWhile Char.isWhitespace = l.dropWhile Char.isWhitespace := by
  induction a with
  | zero => rfl
  | succ a ih =>
    rw [List.replicate_succ, List.cons_append, List.dropWhile_cons_of_pos (by decide), ih]

theorem strip_spaces (a b : ℕ) (c z : Char) (l : List Char) (hc : c.isWhitespace = false) (hz : z.isWhitespace = false) :
    strip (List.replicate a ' ' ++ (c :: l ++ [z]) ++ List.replicate b ' ') = c :: l ++ [z] := by
  unfold strip
  rw [List.append_assoc, dropWhile_spaces, List.cons_append, List.cons_append, List.dropWhile_cons_of_neg (by simp [hc])]
  have : (c :: (l ++ [z] ++ List.replicate b ' ')).reverse = List.replicate b ' ' ++ (z :: (c :: l).reverse) := by simp
  rw [this, dropWhile_spaces, List.dropWhile_cons_of_neg (by simp [hz])]
  simp

/-- Specification: the bytes of a unit, for its first letter in lower case. -/
def unitBytes : Char → Option ℕ
  | 'k' => some (2 ^ 10)
  | 'm' => some (2 ^ 20)
  | 'g' => some (2 ^ 30)
  | _ => none

/-- C117. A number (beginning with `c`, which is not white space), a unit in any case, and spaces around: the number times the bytes
of the unit; a `ValueError` if the unit is another one or the number is none. -/
theorem C117_units (float : List Char → Option ℝ) (a b : ℕ) (c : Char) (q : List Char) (u v : Char)
    (hc : c.toLower.isWhitespace = false) (hv : v.toLower = 'b') :
    convert float (.str (List.replicate a ' ' ++ (c :: q ++ [u, v]) ++ List.replicate b ' ')) =
      match unitBytes u.toLower, float ((c :: q).map Char.toLower) with
      | some n, some x => .ok (x * n)
      | _, _ => .error .valueError := by
  have hm : strip ((List.replicate a ' ' ++ (c :: q ++ [u, v]) ++ List.replicate b ' ').map Char.toLower) =
      (c :: q).map Char.toLower ++ [u.toLower, 'b'] := by
    have e : (List.replicate a ' ' ++ (c :: q ++ [u, v]) ++ List.replicate b ' ').map Char.toLower =
        List.replicate a ' ' ++ (c.toLower :: (q.map Char.toLower ++ [u.toLower]) ++ ['b']) ++ List.replicate b ' ' := by
      have : Char.toLower ' ' = ' ' := by decide
      simp [hv, this]
    rw [e, strip_spaces _ _ _ _ _ hc (by decide)]
    simp
  have hsuf : ∀ w : Char, [w, 'b'] <:+ (c :: q).map Char.toLower ++ [u.toLower, 'b'] ↔ w = u.toLower := by
    intro w
    constructor
    · intro h
      have := List.IsSuffix.eq_of_length (List.suffix_of_suffix_length_le h (List.suffix_append _ [u.toLower, 'b']) (by simp)) (by simp)
      exact (List.cons.inj this).1
    · rintro rfl
      exact List.suffix_append _ _
  have htake : ((c :: q).map Char.toLower ++ [u.toLower, 'b']).take (((c :: q).map Char.toLower ++ [u.toLower, 'b']).length - 2) =
      (c :: q).map Char.toLower := by
    rw [List.length_append]
    exact List.take_left
  simp only [convert, hm, hsuf, htake]
  by_cases hk : 'k' = u.toLower
  · rw [if_pos hk, ← hk]
    cases float ((c :: q).map Char.toLower) <;> simp [unitBytes]
  by_cases hmm : 'm' = u.toLower
  · rw [if_neg hk, if_pos hmm, ← hmm]
    cases float ((c :: q).map Char.toLower) <;> norm_num [unitBytes]
  by_cases hg : 'g' = u.toLower
  · rw [if_neg hk, if_neg hmm, if_pos hg, ← hg]
    cases float ((c :: q).map Char.toLower) <;> norm_num [unitBytes]
  rw [if_neg hk, if_neg hmm, if_neg hg]
  have : unitBytes u.toLower = none := by
    unfold unitBytes
    split
    · exact absurd (by assumption) (Ne.symm hk)
    · exact absurd (by assumption) (Ne.symm hmm)
    · exact absurd (by assumption) (Ne.symm hg)
    · rfl
  rw [this]

/-- C117. Sizes in bytes, binary units and larger units as strings are errors, whatever number stands before them. -/
theorem C117_rejected (float : List Char → Option ℝ) : ∀ s ∈ ["512", "512 B", "32 KiB", "1 MiB", "1 TB"],
    ∀ x, convert float (.str s.toList) ≠ .ok x := by
  intro s hs x
  have h : ¬ ['k', 'b'] <:+ strip (s.toList.map Char.toLower) ∧ ¬ ['m', 'b'] <:+ strip (s.toList.map Char.toLower) ∧
      ¬ ['g', 'b'] <:+ strip (s.toList.map Char.toLower) := by
    revert s
    decide +kernel
  simp only [convert, if_neg h.1, if_neg h.2.1, if_neg h.2.2]
  exact fun h => nomatch h

/-- Concrete case: the two sizes of the docstring, as the rows and the strings of the theorems above. -/
example : (32768 : ℝ) ≥ 0 ∧ bytes 2 15 9 2 8 ≤ 32768 ∧ ¬ bytes 2 16 9 2 8 ≤ 32768 ∧ ¬ bytes 2 (15 + 2 * 1) 9 2 8 ≤ 32768 ∧
    "32 KB".toList = List.replicate 0 ' ' ++ ('3' :: ['2', ' '] ++ ['K', 'B']) ++ List.replicate 0 ' ' ∧
    unitBytes 'K'.toLower = some 1024 ∧ unitBytes 'T'.toLower = none :=
  ⟨by norm_num, by decide, by decide, by decide, by decide +kernel, by decide, by decide⟩

end DomainSize
end Lbm
