/-
Property theorems C17, C46: aliasing, discrete moments, index representations.
-/
import Verif.MomentsLemmas
import Verif.Props.Streaming
import Mathlib.Tactic.Ring
import Mathlib.Data.List.GetD
import Mathlib.Tactic.LinearCombination
import Mathlib.Algebra.BigOperators.Group.List.Basic

namespace Lbm

variable {R : Type} [CommRing R]

/-! ### Specification -/

namespace Spec

/-- The monomial with the given exponents at a point. -/
def monomial (m : List ℕ) (x : List R) : R := (List.zipWith (fun e c => c ^ e) m x).prod

/-- The discrete moment `Σ_i f_i ∏_a c_{i,a}^{m_a}`. -/
def discMoment (f : List R) (m : List ℕ) (stencil : List (List ℤ)) : R :=
  (List.zipWith (fun fi c => fi * monomial m (c.map fun a : ℤ => (a : R))) f stencil).sum

/-- Value of a polynomial in exponent representation. -/
def polyEval (p : MPoly R) (x : List R) : R := (p.map fun t => t.1 * monomial t.2 x).sum

end Spec

/-! ### Helper lemmas -/

theorem momentEntry_shift (m : List ℕ) (c : List ℤ) (u : List R) (hu : c.length ≤ u.length) :
    momentEntry m c u = Spec.monomial m (List.zipWith (fun (a : ℤ) s => (a : R) - s) c u) := by
  induction m generalizing c u with
  | nil => simp [momentEntry, Spec.monomial]
  | cons e m ih =>
    cases c with
    | nil => simp [momentEntry, Spec.monomial]
    | cons a c =>
      cases u with
      | nil => simp at hu
      | cons s u =>
        rw [momentEntry, ih c u (by simpa using hu)]
        simp [Spec.monomial]

theorem zipWith_sub_zero (c : List ℤ) (n : ℕ) (hn : c.length ≤ n) :
    List.zipWith (fun (a : ℤ) s => (a : R) - s) c (List.replicate n 0) = c.map fun a : ℤ => (a : R) := by
  induction c generalizing n with
  | nil => simp
  | cons a c ih =>
    cases n with
    | zero => simp at hn
    | succ n => simp [List.replicate_succ, ih n (by simpa using hn)]

theorem factor_foldl (c : List ℤ) (u : List R) (m : List ℕ) (f : R) :
    (List.zip c (List.zip u m)).foldl (fun acc (p : ℤ × R × ℕ) => acc * ((p.1 : R) - p.2.1) ^ p.2.2) f
      = f * momentEntry m c u := by
  induction c generalizing u m f with
  | nil => cases m <;> simp [momentEntry]
  | cons a c ih =>
    cases u with
    | nil => cases m <;> simp [momentEntry]
    | cons s u =>
      cases m with
      | nil => simp [momentEntry]
      | cons e m =>
        simp only [List.zip_cons_cons, List.foldl_cons, momentEntry]
        rw [ih]; ring

theorem sum_foldl {α : Type} (g : α → R) (l : List α) (r : R) :
    l.foldl (fun res p => res + g p) r = r + (l.map g).sum := by
  induction l generalizing r with
  | nil => simp
  | cons a l ih => simp [ih, add_assoc]

theorem monomial_nonAliased (m : List ℕ) (c : List ℤ) (hc : ∀ a ∈ c, a = -1 ∨ a = 0 ∨ a = 1) :
    Spec.monomial (nonAliasedMoment m) (c.map fun a : ℤ => (a : R)) = Spec.monomial m (c.map fun a : ℤ => (a : R)) := by
  induction m generalizing c with
  | nil => rfl
  | cons e m ih =>
    cases c with
    | nil => simp [Spec.monomial]
    | cons a c =>
      have h1 := ih c fun a ha => hc a (by simp [ha])
      have h2 : ((a : ℤ) : R) ^ (if e > 2 then 2 - e % 2 else e) = (a : R) ^ e := by
        split
        · rename_i he
          obtain ⟨k, hk⟩ : ∃ k, e = 2 * k + e % 2 := ⟨e / 2, by omega⟩
          have hkp : 1 ≤ k := by omega
          rcases hc a (by simp) with rfl | rfl | rfl
          · rcases Nat.mod_two_eq_zero_or_one e with h | h <;> rw [h] at hk ⊢ <;> rw [hk] <;> simp [pow_add, pow_mul]
          · have h3 : 2 - e % 2 ≠ 0 := by omega
            have h4 : e ≠ 0 := by omega
            rw [Int.cast_zero, zero_pow h3, zero_pow h4]
          · simp
        · rfl
      unfold Spec.monomial at h1 ⊢
      simp only [nonAliasedMoment, List.map_cons, List.zipWith_cons_cons, List.prod_cons] at h1 ⊢
      rw [h2]
      congr 1

theorem momentEntry_row (st : List (List ℤ)) (D : ℕ) (hst : ∀ c ∈ st, c.length = D) (m : List ℕ) (c : List ℤ)
    (hc : c ∈ st) : momentEntry m c (List.replicate (st.headD []).length (0 : R))
      = Spec.monomial m (c.map fun a : ℤ => (a : R)) := by
  have hD : (st.headD []).length = D := by
    cases st with
    | nil => simp at hc
    | cons d st => exact hst d (by simp)
  rw [hD, momentEntry_shift _ _ _ (by simp [hst c hc]), zipWith_sub_zero _ _ (by simp [hst c hc])]

/-! ### C17 -/

/-- C17: `discrete_moment` of an exponent tuple computes `Σ_i f_i ∏_a (c_{i,a} - u_a)^{m_a}` (for stencils whose
directions all have the dimension of the shift), without a shift `Σ_i f_i ∏_a c_{i,a}^{m_a}`. -/
theorem C17_discrete_moment (f : List R) (m : List ℕ) (st : List (List ℤ)) (D : ℕ) (hst : ∀ c ∈ st, c.length = D)
    (hf : st.length = f.length) :
    discreteMoment f m st none = some (Spec.discMoment f m st) ∧
      ∀ u : List R, u.length = D → discreteMoment f m st (some u) =
        some (List.zipWith (fun fi c => fi * Spec.monomial m (List.zipWith (fun (a : ℤ) s => (a : R) - s) c u)) f st).sum := by
  have key : ∀ (u : List R), ((List.zip f st).foldl (fun res p => res +
      (List.zip p.2 (List.zip u m)).foldl (fun acc (p : ℤ × R × ℕ) => acc * ((p.1 : R) - p.2.1) ^ p.2.2) p.1) 0)
      = (List.zipWith (fun fi c => fi * momentEntry m c u) f st).sum := by
    intro u
    rw [sum_foldl (fun p : R × List ℤ =>
      (List.zip p.2 (List.zip u m)).foldl (fun acc (p : ℤ × R × ℕ) => acc * ((p.1 : R) - p.2.1) ^ p.2.2) p.1), zero_add]
    simp only [factor_foldl]
    rw [List.zip, List.map_zipWith]
  have cong : ∀ (g h : R → List ℤ → R), (∀ c ∈ st, ∀ x, g x c = h x c) →
      List.zipWith g f st = List.zipWith h f st := by
    intro g h hgh
    clear key hf hst
    induction st generalizing f with
    | nil => simp
    | cons c st ih =>
      cases f with
      | nil => simp
      | cons x f =>
        rw [List.zipWith_cons_cons, List.zipWith_cons_cons, hgh c (by simp) x, ih f fun c hc => hgh c (by simp [hc])]
  constructor
  · unfold discreteMoment Spec.discMoment
    rw [if_pos hf]
    simp only [Option.getD_none, key]
    rw [cong]
    intro c hc x
    rw [momentEntry_row st D hst m c hc]
  · intro u hu
    unfold discreteMoment
    rw [if_pos hf]
    simp only [Option.getD_some, key]
    rw [cong]
    intro c hc x
    rw [momentEntry_shift _ _ _ (by rw [hst c hc, hu])]

/-- C17: on first-neighbour stencils the reduced exponents give the same discrete moment, for all populations. -/
theorem C17_non_aliased (f : List R) (m : List ℕ) (st : List (List ℤ)) (D : ℕ) (hst : ∀ c ∈ st, c.length = D)
    (h1 : ∀ c ∈ st, ∀ a ∈ c, a = -1 ∨ a = 0 ∨ a = 1) :
    discreteMoment f (nonAliasedMoment m) st none = discreteMoment f m st none := by
  by_cases hf : st.length = f.length
  · rw [(C17_discrete_moment f _ st D hst hf).1, (C17_discrete_moment f _ st D hst hf).1]
    unfold Spec.discMoment
    congr 2
    clear hf hst
    induction st generalizing f with
    | nil => simp
    | cons c st ih =>
      cases f with
      | nil => simp
      | cons x f =>
        rw [List.zipWith_cons_cons, List.zipWith_cons_cons, monomial_nonAliased m c (h1 c (by simp)),
          ih f fun c hc => h1 c (by simp [hc])]
  · unfold discreteMoment
    rw [if_neg hf, if_neg hf]

/-- C17: the reduced exponents are at most two, have the parity of the originals, are unchanged by a second reduction,
and small exponents are kept. -/
theorem C17_reduced (m : List ℕ) :
    (∀ e ∈ nonAliasedMoment m, e ≤ 2) ∧ nonAliasedMoment (nonAliasedMoment m) = nonAliasedMoment m ∧
      ((∀ e ∈ m, e ≤ 2) → nonAliasedMoment m = m) := by
  refine ⟨?_, ?_, ?_⟩
  · intro e he
    unfold nonAliasedMoment at he
    obtain ⟨x, -, rfl⟩ := List.mem_map.1 he
    split <;> omega
  · unfold nonAliasedMoment
    rw [List.map_map]
    apply List.map_congr_left
    intro e _
    simp only [Function.comp]
    split_ifs <;> omega
  · intro h
    unfold nonAliasedMoment
    conv_rhs => rw [← List.map_id m]
    apply List.map_congr_left
    intro e he
    rw [if_neg (by have := h e he; omega)]
    rfl

/-- C17: beyond first neighbours the reduction is wrong: on the one-dimensional stencil `(0), (2)` the third moment is
not the first one. -/
theorem C17_needs_first_neighbours :
    discreteMoment ([1, 1] : List ℤ) (nonAliasedMoment [3]) [[0], [2]] none ≠
      discreteMoment ([1, 1] : List ℤ) [3] [[0], [2]] none := by decide

/-- invariant of the loop of `aliases_from_moment_list` -/
theorem aliasesLoop_inv (st : List (List ℤ)) (all ms done : List (List ℕ)) (rows : List (List ℤ × List ℕ))
    (al : List (List ℕ × List ℕ)) (hall : all = done ++ ms) (hnd : all.Nodup)
    (h1 : ∀ m ∈ done, rows.lookup (momentRow st m) = some (aliasOf al m))
    (h2 : ∀ r m, rows.lookup r = some m → m ∈ done ∧ momentRow st m = r)
    (h3 : ∀ m, m ∉ done → al.lookup m = none) :
    (∀ m ∈ all, ∀ m' ∈ all, momentRow st m = momentRow st m' →
        aliasOf (aliasesLoop st ms rows al) m = aliasOf (aliasesLoop st ms rows al) m') ∧
    (∀ m ∈ all, aliasOf (aliasesLoop st ms rows al) m ∈ all ∧
        momentRow st (aliasOf (aliasesLoop st ms rows al) m) = momentRow st m) ∧
    (∀ m, m ∉ all → aliasOf (aliasesLoop st ms rows al) m = m) := by
  induction ms generalizing done rows al with
  | nil =>
    have hd : all = done := by simpa using hall
    subst hd
    refine ⟨?_, ?_, ?_⟩
    · intro m hm m' hm' h
      have e1 := h1 m hm
      have e2 := h1 m' hm'
      rw [h, e2] at e1
      exact (Option.some.inj e1).symm
    · intro m hm
      exact h2 _ _ (h1 m hm)
    · intro m hm
      unfold aliasOf
      rw [aliasesLoop, h3 m hm]
      rfl
  | cons x ms ih =>
    have hx : x ∉ done := by
      rw [hall, List.nodup_append] at hnd
      intro h
      exact hnd.2.2 x h x (by simp) rfl
    rw [aliasesLoop]
    cases hl : rows.lookup (momentRow st x) with
    | some m0 =>
      simp only []
      apply ih (done ++ [x]) rows ((x, m0) :: al) (by simp [hall])
      · intro m hm
        rw [List.mem_append, List.mem_singleton] at hm
        rcases hm with hm | rfl
        · have : m ≠ x := by rintro rfl; exact hx hm
          rw [h1 m hm]
          unfold aliasOf
          rw [List.lookup_cons, show (m == x) = false by simpa using this]
        · rw [hl]
          simp [aliasOf]
      · intro r m h
        exact ⟨List.mem_append_left _ (h2 r m h).1, (h2 r m h).2⟩
      · intro m hm
        rw [List.mem_append, List.mem_singleton, not_or] at hm
        rw [List.lookup_cons, show (m == x) = false by simpa using hm.2]
        exact h3 m hm.1
    | none =>
      simp only []
      apply ih (done ++ [x]) ((momentRow st x, x) :: rows) al (by simp [hall])
      · intro m hm
        rw [List.mem_append, List.mem_singleton] at hm
        rcases hm with hm | rfl
        · have : momentRow st m ≠ momentRow st x := by
            intro h
            rw [← h, h1 m hm] at hl
            cases hl
          rw [List.lookup_cons, show (momentRow st m == momentRow st x) = false by simpa using this]
          exact h1 m hm
        · rw [List.lookup_cons]
          simp [aliasOf, h3 m hx]
      · intro r m h
        rw [List.lookup_cons] at h
        by_cases hr : r = momentRow st x
        · subst hr
          simp at h
          subst h
          exact ⟨by simp, rfl⟩
        · rw [show (r == momentRow st x) = false by simpa using hr] at h
          exact ⟨List.mem_append_left _ (h2 r m h).1, (h2 r m h).2⟩
      · intro m hm
        rw [List.mem_append, List.mem_singleton, not_or] at hm
        exact h3 m hm.1

/-- C17: `aliases_from_moment_list` picks one member of every class of moments that agree on the stencil: two listed
moments have the same representative iff they are equal as functions on the stencil, the representative is listed and
agrees with the moment, and nothing else is changed. -/
theorem C17_aliases (ms : List (List ℕ)) (st : List (List ℤ)) (D : ℕ) (hst : ∀ c ∈ st, c.length = D)
    (hnd : ms.Nodup) :
    let al := aliasesFromMomentList ms st
    (∀ m ∈ ms, ∀ m' ∈ ms, aliasOf al m = aliasOf al m' ↔
      ∀ c ∈ st, Spec.monomial m c = Spec.monomial m' c) ∧
    (∀ m ∈ ms, aliasOf al m ∈ ms) ∧ (∀ m, m ∉ ms → aliasOf al m = m) ∧
    (∀ m, ∀ c ∈ st, Spec.monomial (aliasOf al m) c = Spec.monomial m c) := by
  intro al
  obtain ⟨g1, g2, g3⟩ := aliasesLoop_inv st ms ms [] [] [] rfl hnd (by simp) (by simp) (by simp)
  have hrow : ∀ m m', momentRow st m = momentRow st m' ↔ ∀ c ∈ st, Spec.monomial m c = Spec.monomial m' c := by
    intro m m'
    unfold momentRow
    rw [List.map_inj_left]
    refine forall₂_congr fun c hc => ?_
    rw [momentEntry_row (R := ℤ) st D hst m c hc, momentEntry_row (R := ℤ) st D hst m' c hc]
    simp
  refine ⟨fun m hm m' hm' => ?_, fun m hm => (g2 m hm).1, g3, fun m c hc => ?_⟩
  · rw [← hrow]
    refine ⟨fun h => ?_, g1 m hm m' hm'⟩
    have e1 := (g2 m hm).2
    have e2 := (g2 m' hm').2
    exact e1.symm.trans ((congrArg (momentRow st) h).trans e2)
  · by_cases hm : m ∈ ms
    · exact (hrow _ _).1 (g2 m hm).2 c hc
    · rw [show aliasOf al m = m from g3 m hm]

theorem monomial_cast (m : List ℕ) (c : List ℤ) :
    Spec.monomial m (c.map fun a : ℤ => (a : R)) = ((Spec.monomial m c : ℤ) : R) := by
  induction m generalizing c with
  | nil => simp [Spec.monomial]
  | cons e m ih =>
    cases c with
    | nil => simp [Spec.monomial]
    | cons a c =>
      have := ih c
      unfold Spec.monomial at this ⊢
      simp [this]

/-- C17: `non_aliased_polynomial_raw_moments` changes no polynomial's value on the stencil (hence no raw moment),
for every list of monomials, in every order. -/
theorem C17_polynomials (polys : List (MPoly R)) (monos : List (List ℕ)) (st : List (List ℤ)) (D : ℕ)
    (hst : ∀ c ∈ st, c.length = D) (hnd : monos.Nodup) :
    (nonAliasedPolynomials polys monos st).length = polys.length ∧
    ∀ (i : ℕ) (p q : MPoly R), polys[i]? = some p → (nonAliasedPolynomials polys monos st)[i]? = some q →
      ∀ c ∈ st, Spec.polyEval q (c.map fun a : ℤ => (a : R)) = Spec.polyEval p (c.map fun a : ℤ => (a : R)) := by
  unfold nonAliasedPolynomials
  dsimp only
  split
  · refine ⟨rfl, fun i p q h1 h2 c hc => ?_⟩
    rw [h1] at h2
    rw [Option.some.inj h2]
  · refine ⟨by simp, fun i p q h1 h2 c hc => ?_⟩
    rw [List.getElem?_map, h1] at h2
    rw [← Option.some.inj h2]
    unfold nonaliasPolynomial Spec.polyEval
    rw [List.map_map]
    congr 1
    apply List.map_congr_left
    intro t _
    simp only [Function.comp]
    rw [monomial_cast, monomial_cast, (C17_aliases monos st D hst hnd).2.2.2 t.2 c hc]

/-- D2Q9 has aliases beyond exponents: nothing but exponents up to two survives, e.g. `x^3 y` becomes `x y`. -/
example : aliasesFromMomentList [[1, 0], [1, 1], [3, 0], [3, 1]]
    [[0, 0], [0, 1], [0, -1], [-1, 0], [1, 0], [-1, 1], [1, 1], [-1, -1], [1, -1]]
      = [([3, 1], [1, 1]), ([3, 0], [1, 0])] := by decide +kernel

/-! ### C46 -/

theorem modify_mid (dn rest : List ℕ) (a : ℕ) :
    (dn ++ a :: rest).modify dn.length (· + 1) = dn ++ (a + 1) :: rest := by
  induction dn with
  | nil => rfl
  | cons d dn ih => simpa using ih

theorem fold_replicate (dn rest : List ℕ) (a e : ℕ) :
    (List.replicate e dn.length).foldl
      (fun r i => r.bind fun r : List ℕ => if i < r.length then some (r.modify i (· + 1)) else none)
      (some (dn ++ a :: rest)) = some (dn ++ (a + e) :: rest) := by
  induction e generalizing a with
  | zero => rfl
  | succ e ih =>
    rw [List.replicate_succ, List.foldl_cons, Option.bind_some, if_pos (by simp)]
    rw [modify_mid, ih]
    congr 3
    omega

theorem fold_indices (dn m : List ℕ) :
    (momentIndicesFrom dn.length m).foldl
      (fun r i => r.bind fun r : List ℕ => if i < r.length then some (r.modify i (· + 1)) else none)
      (some (dn ++ List.replicate m.length 0)) = some (dn ++ m) := by
  induction m generalizing dn with
  | nil => rfl
  | cons e m ih =>
    rw [momentIndicesFrom, List.foldl_append, List.length_cons, List.replicate_succ, fold_replicate]
    have := ih (dn ++ [0 + e])
    simp only [List.length_append, List.length_singleton, List.append_assoc, List.singleton_append] at this
    rw [this]
    simp

/-- C46: exponents survive the conversion to indices and back. -/
theorem C46_exponents_roundtrip (m : List ℕ) : exponentsFromIndices m.length (momentIndices m) = some m :=
  fold_indices [] m

theorem fold_none (idx : List ℕ) :
    idx.foldl (fun r i => r.bind fun r : List ℕ => if i < r.length then some (r.modify i (· + 1)) else none) none
      = none := by
  induction idx with
  | nil => rfl
  | cons i idx ih => simpa using ih

theorem fold_counts (idx r : List ℕ) (h : ∀ i ∈ idx, i < r.length) :
    ∃ m : List ℕ, idx.foldl
      (fun r i => r.bind fun r : List ℕ => if i < r.length then some (r.modify i (· + 1)) else none) (some r) = some m ∧
      m.length = r.length ∧ ∀ i, i < r.length → m.getD i 0 = r.getD i 0 + idx.count i := by
  induction idx generalizing r with
  | nil => exact ⟨r, rfl, rfl, by simp⟩
  | cons j idx ih =>
    obtain ⟨m, h1, h2, h3⟩ := ih (r.modify j (· + 1)) (by
      intro i hi
      rw [List.length_modify]
      exact h i (by simp [hi]))
    refine ⟨m, ?_, by rw [h2, List.length_modify], ?_⟩
    · rw [List.foldl_cons, Option.bind_some, if_pos (h j (by simp)), h1]
    · intro i hi
      rw [h3 i (by rwa [List.length_modify]), List.count_cons]
      have hi' : i < (r.modify j (· + 1)).length := by rwa [List.length_modify]
      rw [List.getD_eq_getElem _ _ hi', List.getD_eq_getElem _ _ hi, List.getElem_modify]
      by_cases hij : j = i
      · simp [hij]; omega
      · simp [hij]

theorem indicesFrom_count (k : ℕ) (m : List ℕ) (i : ℕ) :
    (momentIndicesFrom k m).count i = if k ≤ i then m.getD (i - k) 0 else 0 := by
  induction m generalizing k with
  | nil => simp [momentIndicesFrom]
  | cons e m ih =>
    rw [momentIndicesFrom, List.count_append, ih, List.count_replicate]
    rcases Nat.lt_trichotomy k i with h | h | h
    · obtain ⟨d, hd⟩ : ∃ d, i - k = d + 1 := ⟨i - k - 1, by omega⟩
      rw [if_neg (by simp; omega), if_pos (by omega), if_pos (by omega), hd, show i - (k + 1) = d by omega]
      simp
    · subst h; simp
    · rw [if_neg (by simp; omega), if_neg (by omega), if_neg (by omega)]

/-- C46: indices below the dimension survive the conversion to exponents and back up to their order; the exponent of a
coordinate is the number of its occurrences; an index outside the dimension is an error. -/
theorem C46_indices_roundtrip (dim : ℕ) (idx : List ℕ) :
    ((∀ i ∈ idx, i < dim) → ∃ m, exponentsFromIndices dim idx = some m ∧ m.length = dim ∧
      (∀ i, i < dim → m.getD i 0 = idx.count i) ∧ (momentIndices m).Perm idx) ∧
    ((∃ i ∈ idx, dim ≤ i) → exponentsFromIndices dim idx = none) := by
  constructor
  · intro h
    obtain ⟨m, h1, h2, h3⟩ := fold_counts idx (List.replicate dim 0) (by simpa using h)
    rw [List.length_replicate] at h2 h3
    have h4 : ∀ i, i < dim → m.getD i 0 = idx.count i := by
      intro i hi
      rw [h3 i hi, List.getD_eq_getElem _ _ (by simpa using hi)]
      simp
    refine ⟨m, h1, h2, h4, ?_⟩
    rw [List.perm_iff_count]
    intro i
    rw [momentIndices, indicesFrom_count, if_pos (Nat.zero_le _), Nat.sub_zero]
    by_cases hi : i < dim
    · exact h4 i hi
    · rw [List.getD_eq_default _ _ (by omega), List.count_eq_zero_of_not_mem]
      intro hm
      exact hi (h i hm)
  · rintro ⟨i, hi, hd⟩
    unfold exponentsFromIndices
    have gen : ∀ r : List ℕ, r.length = dim → idx.foldl
        (fun r i => r.bind fun r : List ℕ => if i < r.length then some (r.modify i (· + 1)) else none) (some r)
          = none := by
      induction idx with
      | nil => cases hi
      | cons j idx ih =>
        intro r hr
        rw [List.foldl_cons, Option.bind_some]
        by_cases hj : j < r.length
        · rw [if_pos hj]
          rcases List.mem_cons.1 hi with rfl | hi
          · omega
          · exact ih hi _ (by simpa using hr)
        · rw [if_neg hj, fold_none]
    exact gen _ (by simp)

/-- C46: `contained_moments` lists exactly the componentwise smaller tuples of sufficient order, each once. -/
theorem C46_contained (m : List ℕ) (minOrder : ℕ) (excl : Bool) :
    (containedMoments m minOrder excl).Nodup ∧
      ∀ t, t ∈ containedMoments m minOrder excl ↔
        List.Forall₂ (· ≤ ·) t m ∧ minOrder ≤ t.sum ∧ (excl = true → t ≠ m) := by
  unfold containedMoments
  refine ⟨(nodup_pyProduct _ ?_).filter _, fun t => ?_⟩
  · intro l hl
    obtain ⟨i, -, rfl⟩ := List.mem_map.1 hl
    exact List.nodup_range
  · rw [List.mem_filter, mem_pyProduct, List.forall₂_map_right_iff]
    have : List.Forall₂ (fun a c => a ∈ List.range (c + 1)) t m ↔ List.Forall₂ (· ≤ ·) t m := by
      constructor <;> intro h <;> refine h.imp fun a b hab => ?_
      · simpa [Nat.lt_succ_iff] using hab
      · simpa [Nat.lt_succ_iff] using hab
    rw [this]
    cases excl <;> simp

theorem monomial_neg (m : List ℕ) (x : List R) (h : m.length = x.length) :
    Spec.monomial m (x.map fun a => -a) = (-1) ^ m.sum * Spec.monomial m x := by
  induction m generalizing x with
  | nil => simp [Spec.monomial]
  | cons e m ih =>
    cases x with
    | nil => simp at h
    | cons a x =>
      have := ih x (by simpa using h)
      unfold Spec.monomial at this ⊢
      simp only [List.map_cons, List.zipWith_cons_cons, List.prod_cons, this, List.sum_cons, pow_add]
      rw [neg_pow]; ring

/-- C46: `is_even` of a tuple holds exactly if the monomial does not change when all signs are flipped. -/
theorem C46_is_even (m : List ℕ) : isEvenTuple m = true ↔
    ∀ x : List ℤ, x.length = m.length → Spec.monomial m (x.map fun a => -a) = Spec.monomial m x := by
  unfold isEvenTuple
  rw [beq_iff_eq]
  constructor
  · intro h x hx
    rw [monomial_neg m x hx.symm, Even.neg_one_pow (Nat.even_iff.2 h), one_mul]
  · intro h
    have h1 := h (List.replicate m.length 1) (by simp)
    rw [monomial_neg _ _ (by simp)] at h1
    have h2 : Spec.monomial m (List.replicate m.length (1 : ℤ)) = 1 := by
      clear h h1
      induction m with
      | nil => rfl
      | cons e m ih =>
        unfold Spec.monomial at ih ⊢
        simp [List.replicate_succ, ih]
    rw [h2, mul_one] at h1
    rcases Nat.mod_two_eq_zero_or_one m.sum with h3 | h3
    · exact h3
    · rw [Odd.neg_one_pow (Nat.odd_iff.2 h3)] at h1
      exact absurd h1 (by decide)

example : momentIndices [2, 1, 3] = [0, 0, 1, 2, 2, 2] ∧ exponentsFromIndices 3 [2, 0, 1, 2, 0, 2] = some [2, 1, 3] ∧
    containedMoments [1, 1] 1 = [[0, 1], [1, 0]] ∧ isEvenTuple [3, 1, 0] = true := by decide

/-! ### C48 -/

section Bulk
variable [DecidableEq R]

namespace Spec
/-- Sum of the coefficients of a monomial. -/
def coeffSum (p : MPoly R) (m : List ℕ) : R := ((p.filter fun t => t.2 = m).map fun t => t.1).sum

/-- The exponent tuple of `x_i^2`. -/
def square (dim i : ℕ) : List ℕ := (List.range dim).map fun j => if j = i then 2 else 0
end Spec

omit [DecidableEq R] in
theorem bulkLoop_spec (dim : ℕ) (p : MPoly R) (q : Bool) (found : List R) (hf : found.length = dim) :
    bulkLoop dim p q found =
      if ∃ t ∈ p, 2 < t.2.sum then none
      else some (q || p.any fun t => t.2.sum == 2, (List.range dim).map fun i => found.getD i 0 +
        ((p.filter fun t => t.2.sum = 2 ∧ t.2.getD i 0 = 2).map fun t => t.1).sum) := by
  induction p generalizing q found with
  | nil =>
    simp only [bulkLoop, List.not_mem_nil, false_and, exists_false, if_false, List.any_nil, Bool.or_false,
      List.filter_nil, List.map_nil, List.sum_nil, add_zero]
    congr 2
    apply List.ext_getElem
    · simp [hf]
    · intro i h1 h2
      rw [List.getElem_map, List.getElem_range, List.getD_eq_getElem _ _ h1]
  | cons t p ih =>
    obtain ⟨c, m⟩ := t
    rw [bulkLoop]
    by_cases h2 : m.sum = 2
    · rw [if_pos h2, ih _ _ (by simp)]
      have e1 : (∃ t ∈ ((c, m) :: p : MPoly R), 2 < t.2.sum) ↔ ∃ t ∈ p, 2 < t.2.sum := by simp [h2]
      rw [if_congr e1 rfl rfl]
      split
      · rfl
      · congr 2
        · simp [h2]
        · apply List.map_congr_left
          intro i hi
          rw [List.mem_range] at hi
          rw [List.getD_eq_getElem _ _ (by simpa using hi), List.getElem_map, List.getElem_range, List.filter_cons]
          by_cases h3 : m.getD i 0 = 2
          · rw [if_pos h3, if_pos (by simpa only [decide_eq_true_eq] using ⟨h2, h3⟩), List.map_cons, List.sum_cons,
              add_assoc]
          · rw [if_neg h3, if_neg (by simp only [decide_eq_true_eq]; exact fun h => h3 h.2), add_zero]
    · rw [if_neg h2]
      by_cases h3 : m.sum > 2
      · rw [if_pos h3, if_pos ⟨(c, m), by simp, h3⟩]
      · rw [if_neg h3, ih _ _ hf]
        have e1 : (∃ t ∈ ((c, m) :: p : MPoly R), 2 < t.2.sum) ↔ ∃ t ∈ p, 2 < t.2.sum := by
          simp [Nat.not_lt.1 h3]
        rw [if_congr e1 rfl rfl]
        split
        · rfl
        · congr 2
          · rw [List.any_cons, show (m.sum == 2) = false by simpa using h2, Bool.false_or]
          · apply List.map_congr_left
            intro i _
            simp [h2]

theorem eq_square {n i : ℕ} (hi : i < n) (m : List ℕ) (hm : m.length = n) :
    (m.sum = 2 ∧ m.getD i 0 = 2) ↔ m = Spec.square n i := by
  have hsq : ∀ n i : ℕ, i < n → (Spec.square n i).sum = 2 := by
    intro n i hi
    unfold Spec.square
    induction n with
    | zero => omega
    | succ n ih =>
      rw [List.range_succ, List.map_append, List.sum_append]
      rcases Nat.lt_or_ge i n with h | h
      · rw [ih h, List.map_singleton, if_neg (by omega)]; rfl
      · have hin : i = n := by omega
        subst hin
        rw [List.sum_eq_zero_iff.2]
        · simp
        · intro x hx
          obtain ⟨j, hj, rfl⟩ := List.mem_map.1 hx
          rw [List.mem_range] at hj
          rw [if_neg (by omega)]
  constructor
  · rintro ⟨h1, h2⟩
    induction m generalizing n i with
    | nil => simp at h2
    | cons e m ih =>
      cases i with
      | zero =>
        simp at h2
        subst h2
        have h3 : m.sum = 0 := by simpa using h1
        rw [List.sum_eq_zero_iff] at h3
        subst hm
        unfold Spec.square
        rw [List.length_cons, List.range_succ_eq_map, List.map_cons, List.map_map]
        congr 1
        apply List.ext_getElem
        · simp
        · intro j h4 h5
          simp [h3 _ (List.getElem_mem h4)]
      | succ i =>
        simp at h2
        have hi' : i < m.length := by subst hm; simpa using hi
        have h3 : m.getD i 0 ≤ m.sum := by
          rw [List.getD_eq_getElem _ _ hi']
          exact List.single_le_sum (by simp) _ (List.getElem_mem hi')
        have h4 : e = 0 := by simp at h1 h3; omega
        subst h4
        have := ih (n := m.length) (i := i) hi' rfl (by simpa using h1) (by simpa using h2)
        subst hm
        unfold Spec.square at this ⊢
        rw [List.length_cons, List.range_succ_eq_map, List.map_cons, List.map_map]
        simp only [Function.comp_def]
        rw [if_neg (by omega)]
        congr 1
        conv_lhs => rw [this]
        apply List.map_congr_left
        intro j _
        simp
  · rintro rfl
    refine ⟨hsq n i hi, ?_⟩
    rw [List.getD_eq_getElem _ _ (by simpa [Spec.square] using hi)]
    simp [Spec.square]

/-- C48: what `is_bulk_moment` decides, exactly: there are no terms above second order, and all squares `x_i^2`
(`i < dim`) have the same non-zero coefficient. `n ≥ dim` is the length of the exponent tuples (3 for polynomials). -/
theorem C48_bulk (p : MPoly R) (n dim : ℕ) (hd : 1 ≤ dim) (hn : dim ≤ n) (hp : ∀ t ∈ p, t.2.length = n) :
    isBulkMoment p dim = true ↔ (∀ t ∈ p, t.2.sum ≤ 2) ∧
      ∃ c : R, c ≠ 0 ∧ ∀ i, i < dim → Spec.coeffSum p (Spec.square n i) = c := by
  unfold isBulkMoment
  rw [bulkLoop_spec _ _ _ _ (by simp)]
  by_cases h : ∃ t ∈ p, 2 < t.2.sum
  · rw [if_pos h]
    simp only [Bool.false_eq_true, false_iff, not_and]
    intro h'
    obtain ⟨t, h1, h2⟩ := h
    have := h' t h1
    omega
  · rw [if_neg h]
    have h' : ∀ t ∈ p, t.2.sum ≤ 2 := fun t ht => by
      by_contra hc
      exact h ⟨t, ht, by omega⟩
    have e : ((List.range dim).map fun i => (List.replicate dim (0 : R)).getD i 0 +
        ((p.filter fun t => t.2.sum = 2 ∧ t.2.getD i 0 = 2).map fun t => t.1).sum)
        = (List.range dim).map fun i => Spec.coeffSum p (Spec.square n i) := by
      apply List.map_congr_left
      intro i hi
      rw [List.mem_range] at hi
      rw [List.getD_eq_getElem _ _ (by simpa using hi), List.getElem_replicate, zero_add]
      unfold Spec.coeffSum
      congr 2
      apply List.filter_congr
      intro t ht
      rw [decide_eq_decide]
      exact eq_square (by omega) t.2 (hp t ht)
    simp only [e, Bool.false_or, Bool.and_eq_true, decide_eq_true_eq]
    constructor
    · rintro ⟨⟨-, h2⟩, h3⟩
      refine ⟨h', Spec.coeffSum p (Spec.square n 0), ?_, ?_⟩
      all_goals
        obtain ⟨c, hc⟩ := List.length_eq_one_iff.1 h3
        have hall : ∀ i, i < dim → Spec.coeffSum p (Spec.square n i) = c := by
          intro i hi
          have : Spec.coeffSum p (Spec.square n i) ∈
              ((List.range dim).map fun i => Spec.coeffSum p (Spec.square n i)).dedup :=
            List.mem_dedup.2 (List.mem_map.2 ⟨i, List.mem_range.2 hi, rfl⟩)
          rw [hc] at this
          simpa using this
      · intro h0
        apply h2
        rw [List.eq_replicate_iff]
        refine ⟨by simp, fun b hb => ?_⟩
        obtain ⟨i, hi, rfl⟩ := List.mem_map.1 hb
        rw [hall i (List.mem_range.1 hi), ← hall 0 (by omega), h0]
      · intro i hi
        rw [hall i hi, hall 0 (by omega)]
    · rintro ⟨-, c, hc, hall⟩
      have e2 : ((List.range dim).map fun i => Spec.coeffSum p (Spec.square n i)) = List.replicate dim c := by
        rw [List.eq_replicate_iff]
        refine ⟨by simp, fun b hb => ?_⟩
        obtain ⟨i, hi, rfl⟩ := List.mem_map.1 hb
        exact hall i (List.mem_range.1 hi)
      rw [e2]
      refine ⟨⟨?_, ?_⟩, ?_⟩
      · have h0 := hall 0 (by omega)
        by_contra hq
        apply hc
        rw [← h0]
        unfold Spec.coeffSum
        rw [List.filter_eq_nil_iff.2, List.map_nil, List.sum_nil]
        intro t ht htt
        apply hq
        rw [List.any_eq_true]
        refine ⟨t, ht, ?_⟩
        have := ((eq_square (i := 0) (by omega) t.2 (hp t ht)).2 (by simpa using htt)).1
        simpa using this
      · intro h3
        have h4 : c ∈ List.replicate dim (0 : R) := by rw [← h3]; exact List.mem_replicate.2 ⟨by omega, rfl⟩
        exact hc (List.mem_replicate.1 h4).2
      · obtain ⟨d, rfl⟩ : ∃ d, dim = d + 1 := ⟨dim - 1, by omega⟩
        rw [List.replicate_dedup (by omega)]
        rfl

/-- C48: bulk and shear moments exclude each other, and together they are the polynomials of order exactly two. -/
theorem C48_shear (p : MPoly R) (dim : ℕ) :
    (isShearMoment p dim = true → isBulkMoment p dim = false) ∧
      ((isShearMoment p dim = true ∨ isBulkMoment p dim = true) ↔
        (∃ t ∈ p, t.2.sum = 2) ∧ ∀ t ∈ p, t.2.sum ≤ 2) := by
  have hb : isBulkMoment p dim = true → (∃ t ∈ p, t.2.sum = 2) ∧ ∀ t ∈ p, t.2.sum ≤ 2 := by
    intro h
    unfold isBulkMoment at h
    rw [bulkLoop_spec _ _ _ _ (by simp)] at h
    by_cases hh : ∃ t ∈ p, 2 < t.2.sum
    · rw [if_pos hh] at h; cases h
    · rw [if_neg hh] at h
      simp only [Bool.false_or, Bool.and_eq_true, List.any_eq_true, beq_iff_eq] at h
      refine ⟨h.1.1, fun t ht => ?_⟩
      by_contra hc
      exact hh ⟨t, ht, by omega⟩
  unfold isShearMoment
  constructor
  · intro h
    simp only [Bool.and_eq_true, Bool.not_eq_true'] at h
    exact h.1.1
  · cases hB : isBulkMoment p dim with
    | true => simpa using hb hB
    | false => simp

/-- C48 violated: "the bulk moment is `x² + y² + z²`" - but `x² + y² + xy`, which contains the shear moment `xy`, is a
bulk moment for `is_bulk_moment`, and so not a shear moment for `is_shear_moment`. -/
theorem C48_mixed_term_is_bulk :
    isBulkMoment [((1 : ℤ), [2, 0, 0]), (1, [0, 2, 0]), (1, [1, 1, 0])] 2 = true ∧
      isShearMoment [((1 : ℤ), [2, 0, 0]), (1, [0, 2, 0]), (1, [1, 1, 0])] 2 = false := by decide +kernel

example : isBulkMoment [((1 : ℤ), [2, 0, 0]), (1, [0, 2, 0]), (-2, [0, 0, 0])] 2 = true ∧
    isShearMoment [((1 : ℤ), [2, 0, 0]), (-1, [0, 2, 0])] 2 = true ∧
    isShearMoment [((1 : ℤ), [2, 1, 0])] 2 = false := by decide +kernel

end Bulk

end Lbm
